import Verif.Proofs.Mranisz.FileIO
import Verif.Proofs.Mranisz.Link

/-!
# The rank objects that `load` makes answer as the ones that were saved
-/

set_option autoImplicit false

namespace MRS.Mran
open Outcome

/-- The same answer, if any. -/
def Eqv {α : Type} (a b : Outcome α) : Prop := ∀ r, a = ok r ↔ b = ok r

theorem Eqv.refl {α : Type} (a : Outcome α) : Eqv a a := fun _ => Iff.rfl

theorem Eqv.bind {α β : Type} {a b : Outcome α} {f g : α → Outcome β} (h : Eqv a b) (hf : ∀ x, Eqv (f x) (g x)) :
    Eqv (a >>= f) (b >>= g) := by
  intro r
  cases a with
  | ok x =>
    rw [(h x).1 rfl]
    exact hf x r
  | ub e =>
    cases b with
    | ok y => cases (h y).2 rfl
    | ub e' => constructor <;> intro h' <;> cases h'
    | abort => constructor <;> intro h' <;> cases h'
  | abort =>
    cases b with
    | ok y => cases (h y).2 rfl
    | ub e' => constructor <;> intro h' <;> cases h'
    | abort => constructor <;> intro h' <;> cases h'

theorem Eqv.ite {α : Type} {a a' b b' : Outcome α} {p : Prop} [Decidable p] (h1 : Eqv a a') (h2 : Eqv b b') :
    Eqv (if p then a else b) (if p then a' else b') := by
  split
  · exact h1
  · exact h2

theorem Eqv.forN {σ : Type} {f g : Nat → σ → Outcome σ} (h : ∀ i s, Eqv (f i s) (g i s)) (n : Nat) (s : σ) :
    Eqv (forN n f s) (forN n g s) := by
  unfold MRS.forN
  generalize 0 = i
  induction n generalizing i s with
  | zero => exact Eqv.refl _
  | succ n ih => exact Eqv.bind (h i s) (fun s => ih s (i + 1))

/-- The same cells. -/
def Same {α : Type} (v w : Vec (Option α)) : Prop := ∀ i, Eqv (uget v i) (uget w i)

theorem uget_iff {α : Type} (v : Vec (Option α)) (i : Nat) (a : α) :
    uget v i = ok a ↔ i < v.len ∧ v.f i = some a := by
  constructor
  · intro h
    unfold uget Vec.get at h
    by_cases hi : i < v.len
    · rw [if_pos hi, ok_bind] at h
      cases hf : v.f i with
      | none => rw [hf] at h; cases h
      | some b =>
        rw [hf] at h
        injection h with h
        exact ⟨hi, by rw [h]⟩
    · rw [if_neg hi] at h
      cases h
  · rintro ⟨h1, h2⟩
    exact uget_ok h1 h2

theorem clip_same {α : Type} {v : Vec (Option α)} {n e : Nat} (hn : n ≤ v.len) (h : ∀ i, n ≤ i → v.f i = none) :
    Same (clip v n e) v := by
  intro i a
  rw [uget_iff, uget_iff]
  unfold clip
  by_cases h0 : n = 0
  · rw [if_pos h0]
    constructor
    · rintro ⟨h1, -⟩
      exact absurd h1 (Nat.not_lt_zero _)
    · rintro ⟨-, h2⟩
      rw [h i (by omega)] at h2
      cases h2
  · rw [if_neg h0]
    simp only []
    by_cases hi : i < n
    · rw [if_pos hi]
      exact ⟨fun h => ⟨by omega, h.2⟩, fun h => ⟨by omega, h.2⟩⟩
    · rw [if_neg hi, h i (by omega)]
      constructor <;> rintro ⟨-, h2⟩ <;> cases h2

/-! ## The queries see only the cells -/

theorem inBlock_same {v w : Vec (Option Word)} (h : Same v w) (off rank i : Nat) :
    Eqv (inBlock v off rank i) (inBlock w off rank i) := by
  unfold inBlock
  refine Eqv.bind (Eqv.forN (fun k r => Eqv.bind (h _) (fun _ => Eqv.refl _)) _ _) (fun r => ?_)
  exact Eqv.bind (h _) (fun _ => Eqv.refl _)

theorem rankStd_same {x y : Basic} (h1 : Same x.ranks y.ranks) (h2 : Same x.bits y.bits) (i : Nat) :
    Eqv (rankStd x i) (rankStd y i) := by
  unfold rankStd
  refine Eqv.bind (h1 _) (fun a => Eqv.bind (h1 _) (fun b => Eqv.ite (Eqv.refl _) ?_))
  exact Eqv.bind (h1 _) (fun c => inBlock_same h2 _ _ _)

theorem slot1_same {v w : Vec (Option Nat)} (h : Same v w) (p n : Nat) : Eqv (slot1 v p n) (slot1 w p n) :=
  Eqv.bind (h _) (fun _ => Eqv.refl _)

theorem slot2_same {v w : Vec (Option Nat)} (h : Same v w) (p n : Nat) : Eqv (slot2 v p n) (slot2 w p n) := by
  unfold slot2
  split <;> exact Eqv.bind (h _) (fun _ => Eqv.refl _)

theorem rankBch_same {x y : Basic} (h1 : Same x.ranks y.ranks) (h2 : Same x.bits y.bits) (i : Nat) :
    Eqv (rankBch x i) (rankBch y i) := by
  unfold rankBch
  simp only []
  refine Eqv.bind (h1 _) (fun b0 => ?_)
  refine Eqv.bind (Eqv.ite (Eqv.bind (slot1_same h1 _ _) (fun _ => Eqv.refl _)) (Eqv.refl _)) (fun rank => ?_)
  refine Eqv.bind (Eqv.ite (h1 _) (Eqv.bind (slot2_same h1 _ _) (fun _ => Eqv.refl _))) (fun rank2 => ?_)
  refine Eqv.ite (Eqv.refl _) (Eqv.bind (Eqv.ite ?_ (h1 _)) (fun off => inBlock_same h2 _ _ _))
  exact Eqv.bind (h1 _) (fun _ => Eqv.bind (h1 _) (fun _ => Eqv.refl _))

theorem rankCF_same {x y : CF} (h : Same x.bits y.bits) (hb : x.border = y.border) (hbb : x.blockBorder = y.blockBorder)
    (i : Nat) : Eqv (rankCF x i) (rankCF y i) := by
  unfold rankCF
  simp only [hb, hbb]
  refine Eqv.ite ?_ ?_
  · exact Eqv.bind (h _) (fun _ => Eqv.bind (h _) (fun _ => Eqv.ite (Eqv.refl _) (inBlock_same h _ _ _)))
  · exact Eqv.bind (h _) (fun _ => Eqv.bind (h _) (fun _ => Eqv.ite (Eqv.refl _)
      (Eqv.bind (h _) (fun _ => inBlock_same h _ _ _))))

/-! ## The values fit -/

theorem T_lt {t : Vec Byte} (hlen : t.len < 2 ^ 60) {k : Nat} (hk : k ≤ nblk t) : T t (512 * k) < W64 := by
  have h1 := T_le t (512 * k)
  have h2 := nblk_le t
  simp only [W64]
  omega

theorem std_fits {t : Vec Byte} {aR aB : Nat} {x : Basic} (hx : StdOK t aR aB x) (hlen : t.len < 2 ^ 60) :
    Fits x.ranks x.ranksLen := by
  obtain ⟨s, hs, hr, hb⟩ := hx.pass
  have h2 := nblk_le t
  rw [hx.rl, hr]
  refine ⟨by simp only [W64]; omega, fun i hi v hv => ?_⟩
  by_cases hi2 : i % 2 = 0
  · rw [show i = 2 * (i / 2) by omega, hs.r0 _ (by omega)] at hv
    injection hv with hv
    rw [← hv]
    exact T_lt hlen (by omega)
  · rw [show i = 2 * (i / 2) + 1 by omega, hs.r1 _ (by omega)] at hv
    injection hv with hv
    have := ne_le t (i / 2)
    rw [← hv]
    simp only [W64]
    omega

theorem flg_lt (E : Nat → Bool) (j : Nat) : flg E j < W64 := by
  induction j with
  | zero => exact Nat.zero_lt_succ _
  | succ j ih =>
    unfold flg
    split
    · exact ih
    · exact Nat.mod_lt _ (by decide)

theorem bch_fits {t : Vec Byte} {g : Nat → Bool} {aR aB : Nat} {x : Basic} (hx : BchOK t g aR aB x)
    (hlen : t.len < 2 ^ 60) : Fits x.ranks x.ranksLen := by
  have h2 := nblk_le t
  rw [hx.rl]
  refine ⟨by simp only [W64]; omega, fun i hi v hv => ?_⟩
  obtain ⟨b, hb, hf⟩ := hx.sup (i / 19) (by omega)
  have hfi := hf (i % 19) (Nat.mod_lt _ (by decide))
  rw [show 19 * (i / 19) + i % 19 = i by omega, hv] at hfi
  injection hfi with hfi
  rw [hfi]
  have hj : i % 19 < 19 := Nat.mod_lt _ (by decide)
  generalize i % 19 = j at hj
  rcases (show j = 0 ∨ (1 ≤ j ∧ j ≤ 16) ∨ j = 17 ∨ j = 18 by omega) with h | h | h | h
  · rw [h, hb.b0]
    unfold tv
    split
    · exact T_lt hlen (by assumption)
    · decide
  · rw [show j = j - 1 + 1 by omega, hb.mid _ (by omega)]
    exact acc_lt _ _
  · rw [h, hb.off]
    unfold to
    split
    · have := ne_le t (64 * (i / 19))
      simp only [W64]
      omega
    · decide
  · rw [h, hb.flags]
    exact flg_lt _ _

/-! ## Round trips -/

/-- The bytes of a `RankBasic64`. -/
def Basic.file (x : Basic) : File :=
  cell8 (some x.textLen) ++ (block8 x.ranks x.ranksLen ++ block8 (toNats x.bits) x.bitsLen)

theorem Basic.file_length (x : Basic) : x.file.length = 24 + 8 * x.ranksLen + 8 * x.bitsLen := by
  unfold Basic.file
  rw [List.length_append, List.length_append, cell8_length, block8_length, block8_length]
  omega

theorem std_save {t : Vec Byte} {aR aB : Nat} {x : Basic} (hx : StdOK t aR aB x) (f : File) :
    x.save f = ok (f ++ x.file) := by
  obtain ⟨s, hs, hr, hb⟩ := hx.pass
  exact Basic.save_ok (by rw [hx.rl, hr, hs.rlen]; omega) (by rw [hx.bl, hb, hs.blen]; omega) f

theorem std_load {t : Vec Byte} {aR aB : Nat} {x : Basic} (hx : StdOK t aR aB x) (hlen : t.len < 2 ^ 60)
    (bB bR : Nat) (f : File) :
    Basic.load bB bR (x.file ++ f) = ok (x.back bB bR, f) ∧
      (∀ i, Eqv (rankStd (x.back bB bR) i) (rankStd x i)) ∧
      ∀ k, k < x.file.length → Basic.load bB bR (x.file.take k) = abort := by
  have h2 := nblk_le t
  have h3 := ne_le t (nblk t)
  have ht : x.textLen < W64 := by rw [hx.tl]; simp only [W64]; omega
  have hb : x.bitsLen < W64 := by rw [hx.bl]; simp only [W64]; omega
  refine ⟨Basic.load_ok ht (std_fits hx hlen) hb bB bR f, fun i => ?_, fun k hk => ?_⟩
  · obtain ⟨s, hs, hr, hb⟩ := hx.pass
    apply rankStd_same
    · exact clip_same (by rw [hx.rl, hr, hs.rlen]; omega) (by rw [hx.rl, hr]; exact hs.rn)
    · exact clip_same (by rw [hx.bl, hb, hs.blen]; omega) (by rw [hx.bl, hb]; exact hs.bn)
  · exact Basic.load_cut ht (std_fits hx hlen) hb bB bR k (by rw [← Basic.file_length]; exact hk)

theorem bch_save {t : Vec Byte} {g : Nat → Bool} {aR aB : Nat} {x : Basic} (hx : BchOK t g aR aB x) (f : File) :
    x.save f = ok (f ++ x.file) :=
  Basic.save_ok (by rw [hx.rl, hx.rlen]; omega) (by rw [hx.bl, hx.blen]; omega) f

theorem bch_load {t : Vec Byte} {g : Nat → Bool} {aR aB : Nat} {x : Basic} (hx : BchOK t g aR aB x)
    (hlen : t.len < 2 ^ 60) (bB bR : Nat) (f : File) :
    Basic.load bB bR (x.file ++ f) = ok (x.back bB bR, f) ∧
      (∀ i, Eqv (rankBch (x.back bB bR) i) (rankBch x i)) ∧
      ∀ k, k < x.file.length → Basic.load bB bR (x.file.take k) = abort := by
  have h2 := nblk_le t
  have h3 := ne_le t (nblk t)
  have ht : x.textLen < W64 := by rw [hx.tl]; simp only [W64]; omega
  have hb : x.bitsLen < W64 := by rw [hx.bl]; simp only [W64]; omega
  refine ⟨Basic.load_ok ht (bch_fits hx hlen) hb bB bR f, fun i => ?_, fun k hk => ?_⟩
  · apply rankBch_same
    · exact clip_same (by rw [hx.rl, hx.rlen]; omega) (by rw [hx.rl]; exact hx.rn)
    · exact clip_same (by rw [hx.bl, hx.blen]; omega) (by rw [hx.bl]; exact hx.bn)
  · exact Basic.load_cut ht (bch_fits hx hlen) hb bB bR k (by rw [← Basic.file_length]; exact hk)

/-- The bytes of a `RankCF64`. -/
def CF.file (x : CF) : File :=
  cell8 (some x.textLen) ++ (cell8 (some x.border) ++ (cell8 (some x.blockBorder) ++ block8 (toNats x.bits) x.bitsLen))

theorem CF.file_length (x : CF) : x.file.length = 32 + 8 * x.bitsLen := by
  unfold CF.file
  rw [List.length_append, List.length_append, List.length_append, cell8_length, cell8_length, cell8_length, block8_length]
  omega

theorem cf_save {t : Vec Byte} {aB : Nat} {x : CF} (hx : CFOK t aB x) (f : File) : x.save f = ok (f ++ x.file) :=
  CF.save_ok (by rw [hx.bl, hx.len]; omega) f

theorem cf_load {t : Vec Byte} {aB : Nat} {x : CF} (hx : CFOK t aB x) (hlen : t.len < 2 ^ 60) (bB : Nat) (f : File) :
    CF.load bB (x.file ++ f) = ok (x.back bB, f) ∧
      (∀ i, Eqv (rankCF (x.back bB) i) (rankCF x i)) ∧
      ∀ k, k < x.file.length → CF.load bB (x.file.take k) = abort := by
  have h2 := nblk_le t
  have h3 := ne_le t (nblk t)
  have ht : x.textLen < W64 := by rw [hx.tl]; simp only [W64]; omega
  have hb : x.bitsLen < W64 := by rw [hx.bl]; simp only [W64]; omega
  have h4 : x.border < W64 := by rw [hx.border]; simp only [W64]; omega
  have h5 : x.blockBorder < W64 := by rw [hx.bb]; simp only [W64]; omega
  refine ⟨CF.load_ok ht h4 h5 hb bB f, fun i => ?_, fun k hk => ?_⟩
  · refine rankCF_same (x := x.back bB) (y := x) (clip_same ?_ ?_) rfl rfl i
    · rw [hx.bl, hx.len]; omega
    · rw [hx.bl]; exact hx.none
  · exact CF.load_cut ht h4 h5 hb bB k (by rw [← CF.file_length]; exact hk)

end MRS.Mran
