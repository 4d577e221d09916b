import Verif.Model.BenchCompressed
import Verif.Proofs.BenchStructs
import Verif.Props.Util
import Verif.Props.MraniszSelMpe
import Verif.Props.MraniszMpe

/-!
# C112: the benchmark of compressed structures

src/perf_compressed_bitmap.cpp.  `k` and `v` are the number of ones and the words that `create_random_bits`
makes; the text is their bytes, each byte read from its most significant bit on.
-/

set_option autoImplicit false

namespace MRS.Props
open MRS MRS.Bench MRS.Mran MRS.Mran.Life Outcome Spec

/-- The text of a sequence of words. -/
abbrev compText (v : Vec Word) : List (BitVec 8) := Text.bytesOf v.toList

/-- Ones of the text, which are those of the words. -/
theorem compText_count (v : Vec Word) :
    (Text.bits (compText v)).count true = ones (bitsOf v.toList) (64 * v.toList.length) := by
  have h := ones_bytes v.toList (8 * v.toList.length) (Nat.le_refl _)
  rw [show 8 * (8 * v.toList.length) = 64 * v.toList.length by omega] at h
  rw [← h]
  exact (all_ones (by rw [bytesOf_length]; omega)).symm

section
variable {b : Build} {K : Kind} {arg : Vec Byte → K.A} {n k : Nat} {threshold bitsSeed seed : Word} {v : Vec Word}
  {x : K.V}

/-- What the program has before it builds. -/
theorem comp_setup (hn : 256 ≤ n) (h2 : n ≤ 2 ^ 32)
    (e : createRandomBits (Vec.ofList (List.replicate ((n + 63) / 64) 0#64)) threshold bitsSeed = ok (k, v)) :
    v.toList.length = (n + 63) / 64 ∧ (compText v).length = 8 * ((n + 63) / 64) ∧
      k = (Text.bits (compText v)).count true ∧ 0 < k ∧ k ≤ 2 ^ 32 + 64 := by
  obtain ⟨k', v', e', hv, hk, ⟨i, hi, hbit⟩, -⟩ := C34 ((n + 63) / 64) threshold bitsSeed (by omega) (by omega)
  rw [e] at e'
  obtain ⟨rfl, rfl⟩ := Prod.mk.inj (Outcome.ok.inj e')
  have hlen : v.toList.length = (n + 63) / 64 := by rw [toList_length, hv]
  have hbl : (bitsOf v.toList).length = 64 * ((n + 63) / 64) := by rw [bitsOf_length, hlen]
  have hc : k = (bitsOf v.toList).count true := by
    rw [hk, ← hbl]; unfold ones; rw [List.take_length]
  refine ⟨hlen, by rw [bytesOf_length, hlen], by rw [compText_count, hlen, hk], ?_, ?_⟩
  · rw [hc]
    exact List.count_pos_iff.2 (List.mem_of_getElem? hbit)
  · rw [hc]
    have := List.count_le_length (a := true) (l := bitsOf v.toList)
    omega

theorem comp_ub {f : Fault} (op : String)
    (e : createRandomBits (Vec.ofList (List.replicate ((n + 63) / 64) 0#64)) threshold bitsSeed = ok (k, v))
    (eb : K.build (arg (textOf (compText v))) = ub f) :
    compRound b K arg op n threshold bitsSeed seed = ub f := by
  unfold compRound
  rw [e, ok_bind]
  simp only
  rw [wordBytes_textOf, eb]
  rfl

theorem comp_start {op : String} {M : Nat} (hM : M = if op = "select" then k else n) (h0 : 0 < M)
    (e : createRandomBits (Vec.ofList (List.replicate ((n + 63) / 64) 0#64)) threshold bitsSeed = ok (k, v))
    (eb : K.build (arg (textOf (compText v))) = ok x) :
    compRound b K arg op n threshold bitsSeed seed =
      forty (fun _ x => measureComp b K op ((List.range 10000).map (draw seed M)) x) x := by
  have e2 := drawBelow_ok h0 seed numQueries 0
  simp only [Nat.zero_add] at e2
  unfold compRound
  rw [e, ok_bind]
  simp only
  rw [wordBytes_textOf, eb, ok_bind, ← hM, e2, ok_bind]
  rfl

theorem comp_ask {op : String} {M : Nat} {val : Nat → Nat} (hop : op = "rank" ∨ op = "select")
    (hM : M = if op = "select" then k else n) (h0 : 0 < M)
    (e : createRandomBits (Vec.ofList (List.replicate ((n + 63) / 64) 0#64)) threshold bitsSeed = ok (k, v))
    (eb : K.build (arg (textOf (compText v))) = ok x)
    (hv : ∀ j, j < 10000 → K.ask x ((smNth seed j).toNat % M) = ok (val ((smNth seed j).toNat % M))) :
    compRound b K arg op n threshold bitsSeed seed =
      ok (List.replicate 40 (100 * ((List.range 10000).map fun j => val ((smNth seed j).toNat % M)).sum % 2 ^ 64),
        x) := by
  rw [comp_start hM h0 e eb]
  have hm : measure (fun _ _ q => K.ask x q) ((List.range 10000).map (draw seed M)) =
      ok (100 * (((List.range 10000).map (draw seed M)).map val).sum % W64) := by
    refine measure_ok fun run i q hqs => ?_
    obtain ⟨j, hj, rfl⟩ := List.mem_map.1 hqs
    exact hv j (List.mem_range.1 hj)
  rw [List.map_map] at hm
  have hc : measureComp b K op ((List.range 10000).map (draw seed M)) x =
      ok (100 * ((List.range 10000).map (val ∘ draw seed M)).sum % W64, x) := by
    unfold measureComp
    rw [if_pos hop, hm, ok_bind]
  obtain ⟨x', e', hx⟩ := forty_ok (P := fun y => y = x) (v := 100 * ((List.range 10000).map
      (val ∘ draw seed M)).sum % W64)
    (f := fun _ x => measureComp b K op ((List.range 10000).map (draw seed M)) x)
    (fun m y hy => ⟨y, by rw [hy]; exact hc, hy⟩) rfl
  rw [hx] at e'
  exact e'

/-- C112: `build`: once the object is built, no query is made; each line shows a hundred times the sum of
the positions drawn. -/
theorem C112_build (h0 : 0 < n)
    (e : createRandomBits (Vec.ofList (List.replicate ((n + 63) / 64) 0#64)) threshold bitsSeed = ok (k, v))
    (eb : K.build (arg (textOf (compText v))) = ok x) :
    compRound b K arg "build" n threshold bitsSeed seed =
      ok (List.replicate 40 (100 * ((List.range 10000).map fun j => (smNth seed j).toNat % n).sum % 2 ^ 64), x) := by
  rw [comp_start (M := n) (by rw [if_neg (by decide)]) h0 e eb]
  have hm : measure (fun _ _ q => ok q) ((List.range 10000).map (draw seed n)) =
      ok (100 * (((List.range 10000).map (draw seed n)).map id).sum % W64) :=
    measure_ok fun run i q hqs => rfl
  rw [List.map_id] at hm
  have hc : measureComp b K "build" ((List.range 10000).map (draw seed n)) x =
      ok (100 * ((List.range 10000).map (draw seed n)).sum % W64, x) := by
    unfold measureComp
    rw [if_neg (by decide), if_pos rfl, hm, ok_bind]
  obtain ⟨x', e', hx⟩ := forty_ok (P := fun y => y = x) (v := 100 * ((List.range 10000).map
      (draw seed n)).sum % W64)
    (f := fun _ x => measureComp b K "build" ((List.range 10000).map (draw seed n)) x)
    (fun m y hy => ⟨y, by rw [hy]; exact hc, hy⟩) rfl
  rw [hx] at e'
  exact e'

end

section
variable {b : Build} {n k : Nat} {threshold bitsSeed : Word} {v : Vec Word} (hn : 256 ≤ n) (h2 : n ≤ 2 ^ 32)
  (e : createRandomBits (Vec.ofList (List.replicate ((n + 63) / 64) 0#64)) threshold bitsSeed = ok (k, v))
  (seed : Word)

/-- What `rank` prints: a hundred times the sum of the numbers of ones before the positions drawn. -/
def rankTotal (v : Vec Word) (n : Nat) (seed : Word) : Nat :=
  100 * ((List.range 10000).map fun j => ones (Text.bits (compText v)) ((smNth seed j).toNat % n)).sum % 2 ^ 64

include hn h2 e

/-- C112: `rank_basic`. -/
theorem C112_rank_std (aB aR : Nat) : ∃ x, compRound b rankStd64 (fun t => (aB, aR, t)) "rank" n threshold bitsSeed
    seed = ok (List.replicate 40 (rankTotal v n seed), x) := by
  obtain ⟨hl, ht, -⟩ := comp_setup hn h2 e
  obtain ⟨x, eb, h⟩ := C66_basic_rank_partial (X := compText v) (by omega) aB aR
  exact ⟨x, comp_ask (K := rankStd64) (arg := fun t => (aB, aR, t)) (Or.inl rfl) (by rw [if_neg (by decide)])
    (by omega) e eb (fun j _ => h _ (by
      have := Nat.mod_lt (smNth seed j).toNat (show 0 < n by omega)
      unfold Text.blocks; omega))⟩

/-- C112: `rank_bch`, whatever lies after the array of flags. -/
theorem C112_rank_bch (g : Nat → Bool) (aB aR : Nat) : ∃ x, compRound b rankBch64 (fun t => (some g, aB, aR, t))
    "rank" n threshold bitsSeed seed = ok (List.replicate 40 (rankTotal v n seed), x) := by
  obtain ⟨hl, ht, -⟩ := comp_setup hn h2 e
  obtain ⟨x, eb, h⟩ := C67_bch_rank_partial (X := compText v) (by omega) aB aR g
  exact ⟨x, comp_ask (K := rankBch64) (arg := fun t => (some g, aB, aR, t)) (Or.inl rfl)
    (by rw [if_neg (by decide)]) (by omega) e eb (fun j _ => h _ (by
      have := Nat.mod_lt (smNth seed j).toNat (show 0 < n by omega)
      unfold Text.blocks; omega))⟩

/-- C112 (negative): if that memory must not be read, `rank_bch` is undefined for all sizes of the program,
powers of two, and for all operations. -/
theorem C112_rank_bch_beyond (op : String) (aB aR : Nat) (h : (n + 511) / 512 % 64 ≠ 63) :
    compRound b rankBch64 (fun t => (none, aB, aR, t)) op n threshold bitsSeed seed = ub .oob := by
  obtain ⟨hl, ht, -⟩ := comp_setup hn h2 e
  exact comp_ub (K := rankBch64) (arg := fun t => (none, aB, aR, t)) op e
    (C67_bch_build_beyond (X := compText v) aB aR (by unfold Text.blocks; rw [ht]; omega))

/-- C112: `rank_cf`, if some block of 512 bits holds a zero and a one. -/
theorem C112_rank_cf_partial (aB : Nat) (hm : ∃ q, q < Text.blocks (compText v) ∧ ¬ Text.Homog (compText v) q) :
    ∃ x, compRound b rankCF64 (fun t => (aB, t)) "rank" n threshold bitsSeed seed =
      ok (List.replicate 40 (rankTotal v n seed), x) := by
  obtain ⟨hl, ht, -⟩ := comp_setup hn h2 e
  obtain ⟨x, eb, h⟩ := C68_cf_rank_partial (X := compText v) (by omega) aB (Or.inr hm)
  exact ⟨x, comp_ask (K := rankCF64) (arg := fun t => (aB, t)) (Or.inl rfl) (by rw [if_neg (by decide)])
    (by omega) e eb (fun j _ => h _ (by
      have := Nat.mod_lt (smNth seed j).toNat (show 0 < n by omega)
      unfold Text.blocks; omega))⟩

/-- C112 (negative): `rank_cf` is undefined for all operations if no block does. -/
theorem C112_rank_cf_homog (op : String) (aB : Nat)
    (hm : ∀ q, q < Text.blocks (compText v) → Text.Homog (compText v) q) :
    compRound b rankCF64 (fun t => (aB, t)) op n threshold bitsSeed seed = ub .oob := by
  obtain ⟨hl, ht, -⟩ := comp_setup hn h2 e
  exact comp_ub (K := rankCF64) (arg := fun t => (aB, t)) op e
    (C68_cf_homogeneous (X := compText v) (by omega) aB
      (fun h => by rw [h] at ht; simp only [List.length_nil] at ht; omega) hm)

/-- C112: `rank_mpe1`, `rank_mpe2`, `rank_mpe3`, whatever memory holds. -/
theorem C112_rank_mpe (ty : MpeType) (f g : Nat → BitVec 8) (r : Option (Nat → Nat)) (aB aR : Nat) :
    ∃ x, compRound b (rankMpe64 ty false) (fun t => (⟨some f, some g, r⟩, aB, aR, t)) "rank" n threshold bitsSeed
      seed = ok (List.replicate 40 (rankTotal v n seed), x) := by
  obtain ⟨hl, ht, -⟩ := comp_setup hn h2 e
  obtain ⟨x, eb, h⟩ := C75_mpe_rank_partial (X := compText v) ty
    (fun h => by rw [h] at ht; simp only [List.length_nil] at ht; omega) (by omega) f g r aB aR
  exact ⟨x, comp_ask (K := rankMpe64 ty false) (arg := fun t => (⟨some f, some g, r⟩, aB, aR, t)) (Or.inl rfl)
    (by rw [if_neg (by decide)]) (by omega) e eb (fun j _ => h _ (by
      have := Nat.mod_lt (smNth seed j).toNat (show 0 < n by omega)
      unfold Text.blocks128; omega))⟩

/-- C112 (negative): if memory must not be read before it is written, they are undefined for all sizes and
operations. -/
theorem C112_rank_mpe_unwritten (ty : MpeType) (op : String) (g : Option (Nat → BitVec 8))
    (r : Option (Nat → Nat)) (aB aR : Nat) (s : Bool) :
    ∃ f, compRound b (rankMpe64 ty s) (fun t => (⟨none, g, r⟩, aB, aR, t)) op n threshold bitsSeed seed = ub f := by
  obtain ⟨hl, ht, -⟩ := comp_setup hn h2 e
  exact ⟨_, comp_ub (K := rankMpe64 ty s) (arg := fun t => (⟨none, g, r⟩, aB, aR, t)) op e
    (C76_mpe_build_unwritten (X := compText v) ty (by omega) g r aB aR)⟩

end

/-! ## select -/

/-- The pairs of parameters in the program. -/
def Shipped (L TH : Nat) : Prop := (L = 128 ∧ TH = 4096) ∨ (L = 512 ∧ TH = 8192)

/-- What `select` prints: the program draws numbers from 0 on, but the classes count from one, so that 0
stands for `2^64 - 1`, the last one is never asked for, and any other `q` for the position `p q`. -/
def selectTotal (p : Nat → Nat) (k : Nat) (seed : Word) : Nat :=
  100 * ((List.range 10000).map fun j => if (smNth seed j).toNat % k = 0 then 2 ^ 64 - 1
    else p ((smNth seed j).toNat % k)).sum % 2 ^ 64

section
variable {b : Build} {n k L TH : Nat} {threshold bitsSeed : Word} {v : Vec Word} (hn : 256 ≤ n) (h2 : n ≤ 2 ^ 32)
  (e : createRandomBits (Vec.ofList (List.replicate ((n + 63) / 64) 0#64)) threshold bitsSeed = ok (k, v))
  (seed : Word)

omit h2 hn in
theorem select_ask {K : Kind} {arg : Vec Byte → K.A} {x : K.V} (h0 : 0 < k) (he :
    createRandomBits (Vec.ofList (List.replicate ((n + 63) / 64) 0#64)) threshold bitsSeed = ok (k, v))
    (eb : K.build (arg (textOf (compText v))) = ok x) (hz : K.ask x 0 = ok (2 ^ 64 - 1))
    (ha : ∀ q, 1 ≤ q → q < k → ∃ p, K.ask x q = ok p ∧ IsSelect (Text.bits (compText v)) (q - 1) p) :
    ∃ p : Nat → Nat, (∀ q, 1 ≤ q → q < k → IsSelect (Text.bits (compText v)) (q - 1) (p q)) ∧
      compRound b K arg "select" n threshold bitsSeed seed = ok (List.replicate 40 (selectTotal p k seed), x) := by
  have hex : ∀ q, ∃ p, 1 ≤ q → q < k → K.ask x q = ok p ∧ IsSelect (Text.bits (compText v)) (q - 1) p := by
    intro q
    by_cases hq : 1 ≤ q ∧ q < k
    · obtain ⟨p, hp⟩ := ha q hq.1 hq.2
      exact ⟨p, fun _ _ => hp⟩
    · exact ⟨0, fun h1 h2 => absurd ⟨h1, h2⟩ hq⟩
  refine ⟨fun q => (hex q).choose, fun q h1 h2 => ((hex q).choose_spec h1 h2).2, ?_⟩
  refine comp_ask (val := fun q => if q = 0 then 2 ^ 64 - 1 else (hex q).choose) (Or.inr rfl)
    (by rw [if_pos rfl]) h0 he eb (fun j _ => ?_)
  have := Nat.mod_lt (smNth seed j).toNat h0
  generalize (smNth seed j).toNat % k = q at this
  by_cases hq : q = 0
  · subst hq; rw [if_pos rfl]; exact hz
  · rw [if_neg hq]
    exact ((hex q).choose_spec (by omega) this).1

include hn h2 e

/-- C112: `select_basic_128_4096`, `select_basic_512_8192`, unless the last group of ones is wide or its
positions overflow their array (C70). -/
theorem C112_select_std_partial (hp : Shipped L TH) (aS aB : Nat) (ho : ¬ Overflow (compText v) L TH aB)
    (hw : ¬ Text.LastWide (Text.bits (compText v)) L) :
    ∃ p : Nat → Nat, (∀ q, 1 ≤ q → q < k → IsSelect (Text.bits (compText v)) (q - 1) (p q)) ∧
      ∃ x, compRound b (selStd64 false L TH) (fun t => (aS, aB, t)) "select" n threshold bitsSeed seed =
        ok (List.replicate 40 (selectTotal p k seed), x) := by
  obtain ⟨hl, ht, hk, h0, hle⟩ := comp_setup hn h2 e
  have hL : 1 ≤ L := by rcases hp with ⟨rfl, -⟩ | ⟨rfl, -⟩ <;> decide
  obtain ⟨x, eb, h⟩ := C70_std_select_partial (X := compText v) hL (by omega) aS aB (by omega) ho
  obtain ⟨x', eb', hz⟩ := C70_std_zero (X := compText v) hL (by omega) aS aB (by omega) ho
  rw [eb] at eb'
  obtain rfl := Outcome.ok.inj eb'
  obtain ⟨p, h1, h2⟩ := select_ask (b := b) (K := selStd64 false L TH) (arg := fun t => (aS, aB, t)) seed h0 e eb
    (hz false) (fun q h1 h2 => h q h1 (by omega) (fun hh => hw hh.1))
  exact ⟨p, h1, x, h2⟩

/-- C112: `select_bch_128_4096`, `select_bch_512_8192`. -/
theorem C112_select_bch_partial (hp : Shipped L TH) (aS aB : Nat) (ho : ¬ Overflow (compText v) L TH aB)
    (hw : ¬ Text.LastWide (Text.bits (compText v)) L) :
    ∃ p : Nat → Nat, (∀ q, 1 ≤ q → q < k → IsSelect (Text.bits (compText v)) (q - 1) (p q)) ∧
      ∃ x, compRound b (selBch64 false L TH) (fun t => (aS, aB, t)) "select" n threshold bitsSeed seed =
        ok (List.replicate 40 (selectTotal p k seed), x) := by
  obtain ⟨hl, ht, hk, h0, hle⟩ := comp_setup hn h2 e
  have hb : BchOk (compText v) L TH := by
    rcases hp with ⟨rfl, rfl⟩ | ⟨rfl, rfl⟩ <;>
      exact ⟨by decide, by decide, by decide, by decide, by omega, by omega⟩
  obtain ⟨x, eb, h⟩ := C71_bch_select_partial hb aS aB (by omega) ho
  obtain ⟨x', eb', hz⟩ := C71_bch_zero hb aS aB (by omega) ho
  rw [eb] at eb'
  obtain rfl := Outcome.ok.inj eb'
  obtain ⟨p, h1, h2⟩ := select_ask (b := b) (K := selBch64 false L TH) (arg := fun t => (aS, aB, t)) seed h0 e eb
    (hz false) (fun q h1 h2 => h q h1 (by omega) (fun hh => hw hh.1))
  exact ⟨p, h1, x, h2⟩

/-- C112: `select_mpe1_128_4096`, `select_mpe2_128_4096`, `select_mpe3_128_4096`; if the ones are whole groups
of 128, only with a quiet value in the unwritten flag of the last group (C79). -/
theorem C112_select_mpe_partial (ty : MpeType) (f g : Nat → BitVec 8) (aS aB : Nat)
    (ho : ¬ Overflow (compText v) 128 4096 aB) (hw : ¬ Text.LastWide (Text.bits (compText v)) 128)
    (hf : k % 128 ≠ 0 ∨ Quiet ty (f (k / 128 - 1))) :
    ∃ p : Nat → Nat, (∀ q, 1 ≤ q → q < k → IsSelect (Text.bits (compText v)) (q - 1) (p q)) ∧
      ∃ x, compRound b (selMpe64 ty false 128 4096) (fun t => (⟨some f, some g⟩, aS, aB, t)) "select" n threshold
        bitsSeed seed = ok (List.replicate 40 (selectTotal p k seed), x) := by
  obtain ⟨hl, ht, hk, h0, hle⟩ := comp_setup hn h2 e
  have hb : SelMpeOk ty (compText v) 128 4096 := selMpe_shipped ty (by omega)
  obtain ⟨x, eb, h⟩ := C79_mpe_select_partial hb aS aB f g (by omega) ho
  obtain ⟨x', eb', hz⟩ := C79_mpe_zero hb aS aB f (some g) (by omega) ho
  rw [eb] at eb'
  obtain rfl := Outcome.ok.inj eb'
  obtain ⟨p, h1, h2⟩ := select_ask (b := b) (K := selMpe64 ty false 128 4096)
    (arg := fun t => (⟨some f, some g⟩, aS, aB, t)) seed h0 e eb (hz false)
    (fun q h1 h2 => h q h1 (by omega) (fun hh => hw hh.1) (by
      unfold FlagOk
      rw [← hk]
      rcases hf with hf | hf
      · exact Or.inl (by omega)
      · exact Or.inr (Or.inr (Or.inr hf))))
  exact ⟨p, h1, x, h2⟩

/-- C112 (negative): the select classes without pairs are undefined for all sizes and operations if memory must
not be read before it is written. -/
theorem C112_select_mpe_unwritten (ty : MpeType) (op : String) (g : Option (Nat → BitVec 8)) (aS aB : Nat)
    (s : Bool) : ∃ f, compRound b (selMpe64 ty s 128 4096) (fun t => (⟨none, g⟩, aS, aB, t)) op n threshold bitsSeed
      seed = ub f := by
  obtain ⟨hl, ht, hk, h0, hle⟩ := comp_setup hn h2 e
  exact ⟨_, comp_ub (K := selMpe64 ty s 128 4096) (arg := fun t => (⟨none, g⟩, aS, aB, t)) op e
    (C80_mpe_build_unwritten (X := compText v) ty (by decide) (by omega) aS aB g (by omega))⟩

/-- C112 (negative): and where the last group is wide, the standard class prints a number made of wrong
positions whenever it asks for a one of that group: position `a + j` for its one number `j + 1`. -/
theorem C112_select_wide (hp : Shipped L TH) (aS aB : Nat) (ho : ¬ Overflow (compText v) L TH aB)
    (hw : Text.LastWide (Text.bits (compText v)) L) :
    ∃ x a, (selStd64 false L TH).build (aS, aB, textOf (compText v)) = ok x ∧
      Text.UpTo (Text.bits (compText v)) (k / L * L) a ∧
      ∀ q, k / L * L < q → q < k → (selStd64 false L TH).ask x q = ok (a + (q - k / L * L) - 1) := by
  obtain ⟨hl, ht, hk, h0, hle⟩ := comp_setup hn h2 e
  have hL : 1 ≤ L := by rcases hp with ⟨rfl, -⟩ | ⟨rfl, -⟩ <;> decide
  obtain ⟨x, a, eb, ha, h, -⟩ := C70_std_last_wrong (X := compText v) hL (by omega) aS aB (by omega) ho hw false
  rw [← hk] at ha h
  exact ⟨x, a, eb, ha, fun q h1 h2 => h q h1 (by omega)⟩

end

/-! ## The program's own seeds

`create_random_bits` with seed 13 and density 0.5 makes 233 ones of 512 bits, the last position a one. -/

/-- A test of what `create_random_bits` makes for the smallest size. -/
def smallest (P : Nat → List Bool → Bool) : Bool :=
  match createRandomBits (Vec.ofList (List.replicate ((512 + 63) / 64) 0#64)) (BitVec.ofNat 64 (2 ^ 63)) 13#64 with
  | ok (k, v) => P k (Text.bits (compText v))
  | _ => false

theorem smallest_of {P : Nat → List Bool → Bool} {k : Nat} {v : Vec Word} (h : smallest P = true)
    (e : createRandomBits (Vec.ofList (List.replicate ((512 + 63) / 64) 0#64)) (BitVec.ofNat 64 (2 ^ 63)) 13#64 =
      ok (k, v)) : P k (Text.bits (compText v)) = true := by
  unfold smallest at h
  rw [e] at h
  exact h

theorem smallest_facts : smallest (fun k B => k == 233 && B.length == 512 && B.count true == 233 &&
    ones B 0 == 0 && B[511]? == some true && (ones B 512 == 233) && B[1]? == some false &&
    (List.range 385).all fun a => !(ones B a == 128 && ones B (a + 128) == 233 && B[a + 127]? == some true)) =
      true := by decide +kernel

theorem smallest_built : ∃ v, createRandomBits (Vec.ofList (List.replicate ((512 + 63) / 64) 0#64))
    (BitVec.ofNat 64 (2 ^ 63)) 13#64 = ok (233, v) ∧ (Text.bits (compText v)).count true = 233 ∧
      (Text.bits (compText v)).length = 512 ∧ Text.LastWide (Text.bits (compText v)) 512 ∧
      ¬ Text.LastWide (Text.bits (compText v)) 128 ∧ (Text.bits (compText v))[1]? = some false ∧
      ∀ L TH aB, 4096 ≤ TH → ¬ Overflow (compText v) L TH aB := by
  obtain ⟨k, v, e, -⟩ := C34 ((512 + 63) / 64) (BitVec.ofNat 64 (2 ^ 63)) 13#64 (by decide) (by decide)
  have h := smallest_of smallest_facts e
  simp only [Bool.and_eq_true, beq_iff_eq] at h
  obtain ⟨⟨⟨⟨⟨⟨⟨rfl, h1⟩, h2⟩, h3⟩, h4⟩, h5⟩, h6⟩, h7⟩ := h
  refine ⟨v, e, h2, h1, ?_, ?_, h6, ?_⟩
  · refine ⟨by rw [h2]; decide, 0, ?_, ?_⟩
    · exact ⟨by rw [h2]; exact h3, Or.inl rfl⟩
    · exact ⟨by rw [h2]; exact h5, Or.inr h4⟩
  · rintro ⟨-, a, h8, h9⟩
    rw [h2] at h8 h9
    obtain ⟨h9, h10 | h10⟩ := h9
    · omega
    · have hlt : a + 128 - 1 < 512 := by
        rw [← h1]
        exact (List.getElem?_eq_some_iff.1 h10).1
      have := List.all_eq_true.1 h7 a (List.mem_range.2 (by omega))
      rw [h8.1, h9, show a + 127 = a + 128 - 1 by omega, h10] at this
      exact absurd this (by decide)
  · rintro L TH aB hTH ⟨⟨-, -, h8 | h8⟩, -⟩
    · omega
    · have := (List.getElem?_eq_some_iff.1 h8).1
      omega

example (b : Build) (aB aR : Nat) : ∃ v x, compRound b rankStd64 (fun t => (aB, aR, t)) "rank" 512
    (BitVec.ofNat 64 (2 ^ 63)) 13#64 71#64 = ok (List.replicate 40 (rankTotal v 512 71#64), x) := by
  obtain ⟨v, e, -⟩ := smallest_built
  exact ⟨v, C112_rank_std (by decide) (by decide) e 71#64 aB aR⟩

example (b : Build) (aB aR : Nat) (g : Nat → Bool) : ∃ v x, compRound b rankBch64 (fun t => (some g, aB, aR, t)) "rank"
    512 (BitVec.ofNat 64 (2 ^ 63)) 13#64 71#64 = ok (List.replicate 40 (rankTotal v 512 71#64), x) := by
  obtain ⟨v, e, -⟩ := smallest_built
  exact ⟨v, C112_rank_bch (by decide) (by decide) e 71#64 g aB aR⟩

example (b : Build) (aB aR : Nat) : compRound b rankBch64 (fun t => (none, aB, aR, t)) "build" 512
    (BitVec.ofNat 64 (2 ^ 63)) 13#64 71#64 = ub .oob := by
  obtain ⟨v, e, -⟩ := smallest_built
  exact C112_rank_bch_beyond (by decide) (by decide) e 71#64 "build" aB aR (by decide)

theorem smallest_mixed {v : Vec Word} (h1 : (Text.bits (compText v)).count true = 233)
    (h2 : (Text.bits (compText v)).length = 512) : ¬ Text.Homog (compText v) 0 := by
  rintro ⟨c, hc⟩
  rw [Nat.mul_zero, List.drop_zero, List.take_of_length_le (by omega)] at hc
  rw [hc, List.count_replicate] at h1
  cases c <;> exact absurd h1 (by decide)

example (b : Build) (aB : Nat) : ∃ v x, compRound b rankCF64 (fun t => (aB, t)) "rank" 512
    (BitVec.ofNat 64 (2 ^ 63)) 13#64 71#64 = ok (List.replicate 40 (rankTotal v 512 71#64), x) := by
  obtain ⟨v, e, h1, h2, -⟩ := smallest_built
  have hl := (comp_setup (n := 512) (by decide) (by decide) e).2.1
  exact ⟨v, C112_rank_cf_partial (by decide) (by decide) e 71#64 aB
    ⟨0, by unfold Text.blocks; rw [hl]; decide, smallest_mixed h1 h2⟩⟩

example (b : Build) (ty : MpeType) (f g : Nat → BitVec 8) (aB aR : Nat) :
    ∃ v x, compRound b (rankMpe64 ty false) (fun t => (⟨some f, some g, none⟩, aB, aR, t)) "rank" 512
      (BitVec.ofNat 64 (2 ^ 63)) 13#64 71#64 = ok (List.replicate 40 (rankTotal v 512 71#64), x) := by
  obtain ⟨v, e, -⟩ := smallest_built
  exact ⟨v, C112_rank_mpe (by decide) (by decide) e 71#64 ty f g none aB aR⟩

example (b : Build) (aS aB : Nat) : ∃ p x, compRound b (selStd64 false 128 4096) (fun t => (aS, aB, t)) "select" 512
    (BitVec.ofNat 64 (2 ^ 63)) 13#64 71#64 = ok (List.replicate 40 (selectTotal p 233 71#64), x) := by
  obtain ⟨v, e, h1, h2, h3, h4, h5, h6⟩ := smallest_built
  obtain ⟨p, -, x, h⟩ := C112_select_std_partial (b := b) (by decide) (by decide) e 71#64 (Or.inl ⟨rfl, rfl⟩) aS aB
    (h6 _ _ _ (by decide)) h4
  exact ⟨p, x, h⟩

example (b : Build) (aS aB : Nat) : ∃ p x, compRound b (selBch64 false 128 4096) (fun t => (aS, aB, t)) "select" 512
    (BitVec.ofNat 64 (2 ^ 63)) 13#64 71#64 = ok (List.replicate 40 (selectTotal p 233 71#64), x) := by
  obtain ⟨v, e, h1, h2, h3, h4, h5, h6⟩ := smallest_built
  obtain ⟨p, -, x, h⟩ := C112_select_bch_partial (b := b) (by decide) (by decide) e 71#64 (Or.inl ⟨rfl, rfl⟩) aS aB
    (h6 _ _ _ (by decide)) h4
  exact ⟨p, x, h⟩

example (b : Build) (ty : MpeType) (f g : Nat → BitVec 8) (aS aB : Nat) :
    ∃ p x, compRound b (selMpe64 ty false 128 4096) (fun t => (⟨some f, some g⟩, aS, aB, t)) "select" 512
      (BitVec.ofNat 64 (2 ^ 63)) 13#64 71#64 = ok (List.replicate 40 (selectTotal p 233 71#64), x) := by
  obtain ⟨v, e, h1, h2, h3, h4, h5, h6⟩ := smallest_built
  obtain ⟨p, -, x, h⟩ := C112_select_mpe_partial (b := b) (by decide) (by decide) e 71#64 ty f g aS aB
    (h6 _ _ _ (by decide)) h4 (Or.inl (by decide))
  exact ⟨p, x, h⟩

/-- A zero among the first two bits moves all later ones. -/
theorem pos_gt {B : List Bool} {q p : Nat} (hs : IsSelect B (q - 1) p) (h1 : B[1]? = some false) (hq : 2 ≤ q) :
    q - 1 < p := by
  obtain ⟨hb, ho⟩ := hs
  match B, p with
  | [], _ => cases h1
  | [_], _ => cases h1
  | _ :: _ :: _, 0 => rw [← ho]; have : ones _ 0 = q - 1 := ho; simp [ones] at this; omega
  | _ :: c :: _, 1 => cases h1; cases hb
  | _ :: c :: B, p + 2 =>
    cases h1
    have hc : ((false :: B).take (p + 1)).count true ≤ p := by
      rw [List.take_succ_cons, List.count_cons_of_ne (by decide)]
      refine Nat.le_trans List.count_le_length ?_
      rw [List.length_take]
      omega
    unfold ones at ho
    rw [List.take_succ_cons, List.count_cons] at ho
    split at ho <;> omega

theorem dense_facts : (match createRandomBits (Vec.ofList (List.replicate ((512 + 63) / 64) 0#64))
    (BitVec.ofNat 64 (2 ^ 64 - 1)) 13#64 with
  | ok (_, v) => Text.bits (compText v) == List.replicate 512 true
  | _ => false) = true := by decide +kernel

/-- A density so near to 1 that all bits are ones. -/
example (b : Build) (aB : Nat) : compRound b rankCF64 (fun t => (aB, t)) "rank" 512 (BitVec.ofNat 64 (2 ^ 64 - 1))
    13#64 71#64 = ub .oob := by
  obtain ⟨k, v, e, -⟩ := C34 ((512 + 63) / 64) (BitVec.ofNat 64 (2 ^ 64 - 1)) 13#64 (by decide) (by decide)
  have h := dense_facts
  rw [e] at h
  have hl := (comp_setup (n := 512) (by decide) (by decide) e).2.1
  refine C112_rank_cf_homog (by decide) (by decide) e 71#64 "rank" aB (fun q hq => ⟨true, ?_⟩)
  have : q = 0 := by unfold Text.blocks at hq; rw [hl] at hq; omega
  subst this
  rw [beq_iff_eq.1 h]
  decide +kernel

example (b : Build) (aB aR : Nat) : ∃ x, compRound b rankStd64 (fun t => (aB, aR, t)) "build" 512
    (BitVec.ofNat 64 (2 ^ 63)) 13#64 71#64 =
      ok (List.replicate 40 (100 * ((List.range 10000).map fun j => (smNth 71#64 j).toNat % 512).sum % 2 ^ 64), x) := by
  obtain ⟨v, e, -⟩ := smallest_built
  have hl := (comp_setup (n := 512) (by decide) (by decide) e).2.1
  obtain ⟨x, eb, -⟩ := C66_basic_rank_partial (X := compText v) (by omega) aB aR
  exact ⟨x, C112_build (K := rankStd64) (arg := fun t => (aB, aR, t)) (by decide) e eb⟩

example (b : Build) (ty : MpeType) (aB aR : Nat) : ∃ f, compRound b (rankMpe64 ty true)
    (fun t => (⟨none, none, none⟩, aB, aR, t)) "build" 512 (BitVec.ofNat 64 (2 ^ 63)) 13#64 71#64 = ub f := by
  obtain ⟨v, e, -⟩ := smallest_built
  exact C112_rank_mpe_unwritten (by decide) (by decide) e 71#64 ty "build" none none aB aR true

example (b : Build) (ty : MpeType) (aS aB : Nat) : ∃ f, compRound b (selMpe64 ty true 128 4096)
    (fun t => (⟨none, none⟩, aS, aB, t)) "build" 512 (BitVec.ofNat 64 (2 ^ 63)) 13#64 71#64 = ub f := by
  obtain ⟨v, e, -⟩ := smallest_built
  exact C112_select_mpe_unwritten (by decide) (by decide) e 71#64 ty "build" none aS aB true

theorem sum_gap {w r : Nat → Nat} {d : Nat} (h : ∀ j, w j ≤ r j ∧ r j ≤ w j + d) : ∀ m,
    ((List.range m).map w).sum ≤ ((List.range m).map r).sum ∧
      ((List.range m).map r).sum ≤ ((List.range m).map w).sum + m * d ∧
      ∀ j, j < m → w j < r j → ((List.range m).map w).sum < ((List.range m).map r).sum := by
  intro m
  induction m with
  | zero => exact ⟨Nat.le_refl _, Nat.zero_le _, fun j hj => absurd hj (Nat.not_lt_zero _)⟩
  | succ m ih =>
    obtain ⟨h1, h2, h3⟩ := ih
    have hm := h m
    simp only [List.range_succ, List.map_append, List.map_cons, List.map_nil, List.sum_append, List.sum_cons,
      List.sum_nil, Nat.add_zero]
    have he : (m + 1) * d = m * d + d := Nat.succ_mul m d
    refine ⟨by omega, by omega, fun j hj hlt => ?_⟩
    rcases Nat.lt_or_ge j m with hjm | hjm
    · have := h3 j hjm hlt
      omega
    · have : j = m := by omega
      subst this
      omega

theorem hundred_ne {S R N : Nat} (g1 : S < R) (g2 : R ≤ S + 5120000) (hN : 512000000 < N) :
    ¬ 100 * S % N = 100 * R % N := by
  intro he
  have h0 := Nat.sub_mod_eq_zero_of_mod_eq he.symm
  clear he
  rw [← Nat.mul_sub] at h0
  obtain ⟨d, rfl⟩ : ∃ d, R = S + d := ⟨R - S, (Nat.add_sub_cancel' (Nat.le_of_lt g1)).symm⟩
  rw [Nat.add_sub_cancel_left] at h0
  rw [Nat.mod_eq_of_lt (by omega)] at h0
  omega

theorem total_ne {w r : Nat → Nat} {m : Nat} (hm : m ≤ 10000) (h : ∀ j, w j ≤ r j ∧ r j ≤ w j + 512)
    (hj : ∃ j, j < m ∧ w j < r j) :
    100 * ((List.range m).map w).sum % 2 ^ 64 ≠ 100 * ((List.range m).map r).sum % 2 ^ 64 := by
  obtain ⟨j, hj, hlt⟩ := hj
  obtain ⟨g1, g2, g3⟩ := sum_gap (w := w) (r := r) (d := 512) h m
  exact hundred_ne (g3 j hj hlt) (Nat.le_trans g2 (Nat.add_le_add_left (Nat.mul_le_mul_right 512 hm) _)) (by decide)

/-- C112 (negative): with the program's own seeds and density 0.5, `select_basic_512_8192` prints for the
smallest size the sum of wrong positions: `q - 1` for one number `q`, as if all bits were ones.  The number
differs from the one that the right positions give. -/
theorem C112_select_false (b : Build) (aS aB : Nat) : ∃ v t x, createRandomBits (Vec.ofList (List.replicate 8 0#64))
    (BitVec.ofNat 64 (2 ^ 63)) 13#64 = ok (233, v) ∧
    compRound b (selStd64 false 512 8192) (fun t => (aS, aB, t)) "select" 512 (BitVec.ofNat 64 (2 ^ 63)) 13#64
      71#64 = ok (List.replicate 40 t, x) ∧ t = selectTotal (· - 1) 233 71#64 ∧
    ∀ p : Nat → Nat, (∀ q, 1 ≤ q → q < 233 → IsSelect (Text.bits (compText v)) (q - 1) (p q)) →
      t ≠ selectTotal p 233 71#64 := by
  obtain ⟨v, e, h1, h2, h3, h4, h5, h6⟩ := smallest_built
  obtain ⟨hl, ht, hk, h0, hle⟩ := comp_setup (n := 512) (by decide) (by decide) e
  have ho : ¬ Overflow (compText v) 512 8192 aB := h6 _ _ _ (by decide)
  obtain ⟨x, a, eb, ha, hx⟩ := C112_select_wide (n := 512) (by decide) (by decide) e (Or.inr ⟨rfl, rfl⟩) aS aB ho h3
  obtain ⟨x', eb', hz⟩ := C70_std_zero (X := compText v) (L := 512) (TH := 8192) (by decide) (by omega) aS aB
    (by omega) ho
  obtain rfl : x = x' := Outcome.ok.inj (eb.symm.trans eb')
  rw [show 233 / 512 * 512 = 0 from rfl] at ha hx
  have ha0 : a = 0 := by
    obtain ⟨ha1, ha2 | ha2⟩ := ha
    · exact ha2
    · apply Classical.byContradiction
      intro hne
      obtain ⟨hlt, hbit⟩ := List.getElem?_eq_some_iff.1 ha2
      have := ones_succ (B := Text.bits (compText v)) hlt
      rw [Nat.sub_add_cancel (Nat.pos_of_ne_zero hne), ha1, hbit, if_pos rfl] at this
      omega
  subst ha0
  have hx' : ∀ q, 0 < q → q < 233 → (selStd64 false 512 8192).ask x q = ok (q - 1) := by
    intro q h1 h2
    rw [hx q h1 h2, Nat.sub_zero, Nat.zero_add]
  have hr := comp_ask (b := b) (K := selStd64 false 512 8192) (arg := fun t => (aS, aB, t)) (op := "select")
    (seed := 71#64) (val := fun q => if q = 0 then 2 ^ 64 - 1 else q - 1) (Or.inr rfl) (M := 233)
    (by rw [if_pos rfl]) (by decide) e eb (fun j _ => by
      have := Nat.mod_lt (smNth 71#64 j).toNat (show 0 < 233 by decide)
      generalize (smNth 71#64 j).toNat % 233 = q at this
      by_cases hq : q = 0
      · subst hq; rw [if_pos rfl]; exact hz false
      · rw [if_neg hq]
        exact hx' q (Nat.pos_of_ne_zero hq) this)
  refine ⟨v, _, x, e, hr, by unfold selectTotal; simp only [], fun p hp => ?_⟩
  unfold selectTotal
  have hlo : ∀ q, 1 ≤ q → q < 233 → q - 1 ≤ p q ∧ p q < 512 := by
    intro q h7 h8
    have hs := hp q h7 h8
    have hlt := (List.getElem?_eq_some_iff.1 hs.1).1
    have hle : ones (Text.bits (compText v)) (p q) ≤ p q := by
      unfold ones
      refine Nat.le_trans List.count_le_length ?_
      rw [List.length_take]
      exact Nat.min_le_left _ _
    rw [hs.2] at hle
    exact ⟨hle, by rw [← h2]; exact hlt⟩
  refine total_ne (Nat.le_refl _) (fun j => ?_) ⟨0, by decide, ?_⟩
  · have hlt := Nat.mod_lt (smNth 71#64 j).toNat (show 0 < 233 by decide)
    generalize (smNth 71#64 j).toNat % 233 = q at hlt
    by_cases hq : q = 0
    · rw [if_pos hq, if_pos hq]
      exact ⟨Nat.le_refl _, Nat.le_add_right _ _⟩
    · rw [if_neg hq, if_neg hq]
      have := hlo q (Nat.pos_of_ne_zero hq) hlt
      exact ⟨this.1, Nat.le_trans (Nat.le_of_lt this.2) (Nat.le_add_left _ _)⟩
  · have hq0 : 2 ≤ (smNth 71#64 0).toNat % 233 := by decide +kernel
    have hlt := Nat.mod_lt (smNth 71#64 0).toNat (show 0 < 233 by decide)
    generalize (smNth 71#64 0).toNat % 233 = q at hlt hq0
    have hq : ¬ q = 0 := Nat.ne_of_gt (Nat.lt_of_lt_of_le (by decide) hq0)
    rw [if_neg hq, if_neg hq]
    exact pos_gt (hp _ (Nat.le_trans (by decide) hq0) hlt) h5 hq0

end MRS.Props
