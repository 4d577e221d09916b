import Verif.Props.HftHybrid
import Verif.Proofs.Hft.SerialMisc

/-!
# Vendored Fenwick trees: properties C62-C65

Streams (`operator<<`, `operator>>`) and `bitCount()`.  The format is in `Verif/SpecStream.lean`.
-/

set_option autoImplicit false

namespace MRS.Props
open Outcome MRS.Hft Spec.Tree Spec.Stream

/-! ## C62: round trip -/

/-- Build, update, write to a stream, and read the stream back, with `rest` after it. -/
def streamed (c : Cfg) (k : Kind) (A : List Int) (ops : List (Nat × Int)) (rest : List Nat) :
    Outcome (Obj × IStream) := do
  let o ← run c k A ops
  let out ← o.write []
  Obj.read k ⟨out ++ rest, false⟩

theorem streamed_holds {c : Cfg} {k : Kind} {A : List Int} {ops : List (Nat × Int)}
    (hk : k.streams = true) (hn : A.length < 2 ^ 48) (hl : Limits c A.length k)
    (hi : ∀ op ∈ ops, 0 < op.1) (hb : Bounded c k A ops) (rest : List Nat) :
    ∃ o, streamed c k A ops rest = ok (o, ⟨rest, false⟩) ∧
      ObjHolds c A.length (pre (after A ops)) k o := by
  obtain ⟨o, e, h⟩ := run_holds hn hl hi hb
  obtain ⟨o', e', h'⟩ := objRead_ok hk (hl.fits hn) h rest
  refine ⟨o', ?_, h'⟩
  unfold streamed
  rw [e, ok_bind, objWrite_ok (objHolds_levLen h), ok_bind, List.nil_append, e']

theorem staysWithin_append {B : Nat} : ∀ {A : List Int} (ops more : List (Nat × Int)),
    StaysWithin B A (ops ++ more) → StaysWithin B A ops ∧ StaysWithin B (after A ops) more
  | _, [], _, h => ⟨staysWithin_first h, h⟩
  | _, _ :: ops, more, h => by
    obtain ⟨h1, h2⟩ := staysWithin_append ops more h.2
    exact ⟨⟨h.1, h1⟩, h2⟩

theorem after_append (A : List Int) (ops more : List (Nat × Int)) :
    after A (ops ++ more) = after (after A ops) more := by simp [after]

/-- What holds of the object that was read, after further `add`s. -/
theorem streamed_more {c : Cfg} {k : Kind} {A : List Int} {ops more : List (Nat × Int)}
    (hk : k.streams = true) (hn : A.length < 2 ^ 48) (hl : Limits c A.length k)
    (hi : ∀ op ∈ ops ++ more, 0 < op.1) (hb : Bounded c k A (ops ++ more)) (rest : List Nat) :
    ∃ o o', streamed c k A ops rest = ok (o, ⟨rest, false⟩) ∧ o.adds c more = ok o' ∧
      ObjHolds c A.length (pre (after A (ops ++ more))) k o' := by
  obtain ⟨o, e, h⟩ := streamed_holds hk hn hl (fun op ho => hi op (List.mem_append_left _ ho))
    (fun hc => (staysWithin_append ops more (hb hc)).1) rest
  have el := after_length ops A
  have hf := hl.fits hn
  rw [← el] at h hf
  obtain ⟨o', e', h'⟩ := adds_ok more hf (fun op ho => hi op (List.mem_append_right _ ho))
    (fun hc => (staysWithin_append ops more (hb hc)).2) h
  rw [el, ← after_append] at h'
  exact ⟨o, o', e, e', h'⟩

/-- **C62.**  Writing a tree and reading it back gives a tree that answers `prefix` and `size` as the
written one, also after any further `add`s; what follows in the stream is left unread and the stream
stays good.  Every class whose `operator>>` compiles (all but `TypeF` and `TypeL`). -/
theorem C62 {c : Cfg} {k : Kind} {A : List Int} {ops more : List (Nat × Int)}
    (hk : k.streams = true) (hn : A.length < 2 ^ 48) (hl : Limits c A.length k)
    (hi : ∀ op ∈ ops ++ more, 0 < op.1) (hb : Bounded c k A (ops ++ more)) (rest : List Nat) :
    ∃ o o', streamed c k A ops rest = ok (o, ⟨rest, false⟩) ∧ o.adds c more = ok o' ∧
      o'.size = A.length ∧
      ∀ i, i ≤ A.length → o'.prefix c i = ok (pre (after A (ops ++ more)) i % 2 ^ 64).toNat := by
  obtain ⟨o, o', e, e', h⟩ := streamed_more hk hn hl hi hb rest
  refine ⟨o, o', e, e', size_eq h, fun i hi => ?_⟩
  rw [prefix_ok (hl.fits hn) h (pre_zero _) hi]
  rfl

/-- The same for `find`. -/
theorem C62_find {c : Cfg} {k : Kind} {A : List Int} {ops more : List (Nat × Int)}
    (hk : k.streams = true) (hn : A.length < 2 ^ 48) (h0 : 0 < A.length) (hl : Limits c A.length k)
    (hi : ∀ op ∈ ops ++ more, 0 < op.1) (hb : Bounded c k A (ops ++ more))
    (hs : SearchOk k (after A (ops ++ more))) (rest : List Nat) (val : Nat) :
    ∃ o o' r d, streamed c k A ops rest = ok (o, ⟨rest, false⟩) ∧ o.adds c more = ok o' ∧
      o'.find c val = ok (r, d) ∧ Spec.Tree.IsFind (after A (ops ++ more)) val r ∧
      (d : Int) = val - pre (after A (ops ++ more)) r := by
  obtain ⟨o, o', e, e', h⟩ := streamed_more hk hn hl hi hb rest
  have el := after_length (ops ++ more) A
  have hf := hl.fits hn
  rw [← el] at hf h h0
  have hnn : ∀ a ∈ after A (ops ++ more), 0 ≤ a := by
    cases hc : k.compressed with
    | false => exact (hs hc).1
    | true => exact fun a ha => (staysWithin_last _ (hb hc) a ha).1
  obtain ⟨r, d, e1, e2, e3⟩ := find_ok (val := val) hf h h0 (fun h => by subst h; cases hk) hnn
    (fun i h1 h2 => by
      cases hc : k.compressed with
      | false => exact node_lt_total (hs hc) h2
      | true => exact node_lt_bound hf hc (staysWithin_last _ (hb hc)) h1 h2)
  exact ⟨o, o', r, d, e, e', e1, e2, e3⟩

/-- The same for `compFind`. -/
theorem C62_compFind {c : Cfg} {k : Kind} {A : List Int} {ops more : List (Nat × Int)}
    (hk : k.streams = true) (hn : A.length < 2 ^ 48) (h0 : 0 < A.length) (hl : Limits c A.length k)
    (hi : ∀ op ∈ ops ++ more, 0 < op.1) (hb : StaysWithin c.bound A (ops ++ more))
    (hr : bits c.bound + Nat.log2 A.length ≤ 64) (rest : List Nat) (val : Nat) :
    ∃ o o' r d, streamed c k A ops rest = ok (o, ⟨rest, false⟩) ∧ o.adds c more = ok o' ∧
      o'.compFind c val = ok (r, d) ∧
      Spec.Tree.IsFind (complement c.bound (after A (ops ++ more))) val r ∧
      (d : Int) = val - pre (complement c.bound (after A (ops ++ more))) r := by
  obtain ⟨o, o', e, e', h⟩ := streamed_more hk hn hl hi (fun _ => hb) rest
  have el := after_length (ops ++ more) A
  have hf := hl.fits hn
  rw [← c.bs_eq] at hr
  rw [← el] at hf h h0 hr
  obtain ⟨r, d, e1, e2, e3⟩ := compFind_ok (val := val) hf h h0 (fun h => by subst h; cases hk)
    (staysWithin_last _ hb) hr
  exact ⟨o, o', r, d, e, e', e1, e2, e3⟩

example : ∃ o o', streamed (hcfg 7) .bitL [1, 2, 3, 4, 5] [(2, 5)] [9] = ok (o, ⟨[9], false⟩) ∧
    o.adds (hcfg 7) [(3, -1)] = ok o' ∧ o'.prefix (hcfg 7) 4 = ok 14 := by
  obtain ⟨o, o', e, e', -, h⟩ := C62 (c := hcfg 7) (k := .bitL) (A := [1, 2, 3, 4, 5])
    (ops := [(2, 5)]) (more := [(3, -1)]) rfl (by decide) (by unfold Limits; decide +kernel)
    (by decide) (fun _ => by decide) [9]
  exact ⟨o, o', e, e', (h 4 (by decide)).trans (by decide)⟩

example : ∃ o o' r d, streamed (hcfg 7) .byteF [1, 2, 3, 4, 5] [] [] = ok (o, ⟨[], false⟩) ∧
    o.adds (hcfg 7) [(1, 6)] = ok o' ∧ o'.find (hcfg 7) 10 = ok (r, d) ∧
    Spec.Tree.IsFind [7, 2, 3, 4, 5] 10 r := by
  obtain ⟨o, o', r, d, e, e', e1, e2, -⟩ := C62_find (c := hcfg 7) (k := .byteF) (A := [1, 2, 3, 4, 5])
    (ops := []) (more := [(1, 6)]) rfl (by decide) (by decide) (by unfold Limits; decide +kernel)
    (by decide) (fun _ => by decide) (fun h => by cases h) [] 10
  exact ⟨o, o', r, d, e, e', e1, e2⟩

example : ∃ o o' r d, streamed (hcfg 7) .byteL [1, 2, 3, 4, 5] [] [] = ok (o, ⟨[], false⟩) ∧
    o.adds (hcfg 7) [(1, 6)] = ok o' ∧ o'.compFind (hcfg 7) 10 = ok (r, d) ∧
    Spec.Tree.IsFind [0, 5, 4, 3, 2] 10 r := by
  obtain ⟨o, o', r, d, e, e', e1, e2, -⟩ := C62_compFind (c := hcfg 7) (k := .byteL)
    (A := [1, 2, 3, 4, 5]) (ops := []) (more := [(1, 6)]) rfl (by decide) (by decide)
    (by unfold Limits; decide +kernel) (by decide) (by decide) (by decide +kernel) [] 10
  exact ⟨o, o', r, d, e, e', e1, e2⟩

/-- Width of the numbers in each array of the tree. -/
def widths : Kind → List Nat
  | .fixedF | .fixedL => [8]
  | .byteF | .bitF | .typeF | .byteL | .bitL => [1]
  | .typeL => [1, 2, 8]

/-- Number of level starts. -/
def levelStarts (n : Nat) : Nat := if n = 0 then 1 else Nat.log2 n + 2

theorem big_lt {w v b : Nat} (h : b ∈ big w v) : b < 256 := by
  unfold big at h
  obtain ⟨j, -, rfl⟩ := List.mem_map.1 h
  exact Nat.mod_lt _ (by decide)

theorem counted_lt {w : Nat} {l : List Nat} {b : Nat} (h : b ∈ counted w l) : b < 256 := by
  rcases List.mem_append.1 h with h | h
  · exact big_lt h
  · obtain ⟨x, -, h⟩ := List.mem_flatMap.1 h
    exact big_lt h

/-- **C62, format.**  What is written follows what was there before, consists of bytes, and begins
with the number of elements; then come, for the level-ordered classes, the counted level starts, and
for all classes the counted arrays of the tree.  Every number has its most significant byte first.
All eight classes. -/
theorem C62_format {c : Cfg} {k : Kind} {A : List Int} {ops : List (Nat × Int)}
    (hn : A.length < 2 ^ 48) (hl : Limits c A.length k)
    (hi : ∀ op ∈ ops, 0 < op.1) (hb : Bounded c k A ops) :
    ∃ o out, run c k A ops = ok o ∧ (∀ os, o.write os = ok (os ++ out)) ∧ (∀ b ∈ out, b < 256) ∧
      ∃ (lev : List Nat) (arrays : List (Nat × List Nat)),
        lev.length = levelStarts A.length ∧ arrays.map Prod.fst = widths k ∧
        out = big 8 A.length ++ ((if k.classical then [] else counted 8 lev) ++
          arrays.flatMap fun a => counted a.1 a.2) := by
  obtain ⟨o, e, h⟩ := run_holds hn hl hi hb
  have hL := objHolds_levLen h
  have key : ∃ (lev : List Nat) (arrays : List (Nat × List Nat)),
        lev.length = levelStarts A.length ∧ arrays.map Prod.fst = widths k ∧
        o.image = big 8 A.length ++ ((if k.classical then [] else counted 8 lev) ++
          arrays.flatMap fun a => counted a.1 a.2) := by
    have hr : (List.replicate (levelStarts A.length) 0).length = levelStarts A.length :=
      List.length_replicate
    cases k <;> cases o <;> first | exact h.elim | skip
    · rename_i t
      exact ⟨_, [(8, t.tree.toList)], hr, rfl, by simp [Obj.image, Kind.classical, h.1]⟩
    · rename_i t
      exact ⟨_, [(1, (memVec t.tree).toList)], hr, rfl, by simp [Obj.image, Kind.classical, h.1]⟩
    · rename_i t
      exact ⟨_, [(1, (memVec t.tree).toList)], hr, rfl, by simp [Obj.image, Kind.classical, h.1]⟩
    · rename_i t
      exact ⟨_, [(1, (memVec t.tree).toList)], hr, rfl, by simp [Obj.image, Kind.classical, h.1]⟩
    · rename_i t
      exact ⟨t.level.toList, [(8, t.tree.toList)],
        by rw [toList_length, h.2.2.1.len]; rfl, rfl, by simp [Obj.image, Kind.classical, h.1]⟩
    · rename_i t
      exact ⟨t.level.toList, [(1, (memVec t.tree).toList)],
        by rw [toList_length, h.2.2.1.len]; rfl, rfl, by simp [Obj.image, Kind.classical, h.1]⟩
    · rename_i t
      exact ⟨t.level.toList, [(1, (memVec t.tree).toList)],
        by rw [toList_length, h.2.2.1.len]; rfl, rfl, by simp [Obj.image, Kind.classical, h.1]⟩
    · rename_i t
      obtain ⟨ends, hlo⟩ := h.2.2.1
      exact ⟨t.level.toList, [(1, t.tree.t8.toList), (2, t.tree.t16.toList), (8, t.tree.t64.toList)],
        by rw [toList_length, hlo.len]; rfl, rfl, by simp [Obj.image, Kind.classical, h.1]⟩
  refine ⟨o, o.image, e, objWrite_ok hL, ?_, key⟩
  obtain ⟨lev, arrays, -, -, ek⟩ := key
  intro b hb
  rw [ek] at hb
  rcases List.mem_append.1 hb with hb | hb
  · exact big_lt hb
  rcases List.mem_append.1 hb with hb | hb
  · split at hb
    · cases hb
    · exact counted_lt hb
  · obtain ⟨x, -, hb⟩ := List.mem_flatMap.1 hb
    exact counted_lt hb

/-- The bytes of a `FixedF` of two elements: three words, the first unused. -/
example : (do let o ← run (hcfg 7) .fixedF [1, 258] []; o.write [5]) =
    ok ([5] ++ big 8 2 ++ counted 8 [0, 1, 259]) := by decide +kernel

example : ∃ o out, run (hcfg 7) .typeL [1, 2, 3] [] = ok o ∧ o.write [] = ok ([] ++ out) ∧
    out.take 16 = big 8 3 ++ big 8 3 := by
  obtain ⟨o, out, e, h, -, lev, arrays, h1, -, h2⟩ := C62_format (c := hcfg 7) (k := .typeL)
    (A := [1, 2, 3]) (ops := []) (by decide) (by unfold Limits; decide +kernel) (by decide)
    (fun _ => by decide)
  refine ⟨o, out, e, h [], ?_⟩
  have h3 : lev.length = 3 := h1.trans (by decide +kernel)
  rw [h2, show [(1 : Int), 2, 3].length = 3 from rfl]
  simp [Kind.classical, counted, h3, List.take_append, big_length]
  decide

/-! ## C63: streams that end early -/

/-- Build, update, write, and read back only the first `m` bytes. -/
def cutAt (c : Cfg) (k : Kind) (A : List Int) (ops : List (Nat × Int)) (m : Nat) :
    Outcome (Obj × IStream) := do
  let o ← run c k A ops
  let out ← o.write []
  Obj.read k ⟨out.take m, false⟩

/-- Bytes before the tree: two counts, and for the level-ordered classes the level starts and one more
count. -/
def header (k : Kind) (n : Nat) : Nat := if k.classical then 16 else 24 + 8 * levelStarts n

/-- **C63, negation.**  If the stream ends before the header does, `operator>>` uses a variable that
has no value. -/
theorem C63_header {c : Cfg} {k : Kind} {A : List Int} {ops : List (Nat × Int)}
    (hk : k.streams = true) (hn : A.length < 2 ^ 48) (hl : Limits c A.length k)
    (hi : ∀ op ∈ ops, 0 < op.1) (hb : Bounded c k A ops) {m : Nat} (hm : m < header k A.length) :
    cutAt c k A ops m = ub .uninit := by
  obtain ⟨o, e, h⟩ := run_holds hn hl hi hb
  unfold cutAt
  rw [e, ok_bind, objWrite_ok (objHolds_levLen h), ok_bind, List.nil_append]
  exact objRead_short hk (hl.fits hn) h hm

/-- **C63_partial.**  If the stream ends after the header and before the end of the tree, the fail bit
of the stream is set, and the tree is the one that the stream filled up with zero bytes gives, without
any sign in that object.  Missing for the full claim (that a stream that ends early is recognised):
the part before, and an object that says so. -/
theorem C63_partial {c : Cfg} {k : Kind} {A : List Int} {ops : List (Nat × Int)}
    (hk : k.streams = true) (hn : A.length < 2 ^ 48) (hl : Limits c A.length k)
    (hi : ∀ op ∈ ops, 0 < op.1) (hb : Bounded c k A ops) :
    ∃ o out, run c k A ops = ok o ∧ o.write [] = ok out ∧
      ∀ m, header k A.length ≤ m → m < out.length →
        ∃ o', cutAt c k A ops m = ok (o', ⟨[], true⟩) ∧
          Obj.read k ⟨out.take m ++ List.replicate (out.length - m) 0, false⟩ = ok (o', ⟨[], false⟩) ∧
          o'.size = A.length := by
  obtain ⟨o, e, h⟩ := run_holds hn hl hi hb
  have ew := objWrite_ok (objHolds_levLen h) []
  rw [List.nil_append] at ew
  refine ⟨o, o.image, e, ew, fun m h1 h2 => ?_⟩
  obtain ⟨o', e1, e2, e3⟩ := objRead_zeros hk (hl.fits hn) h h1 h2
  refine ⟨o', ?_, e2, e3⟩
  unfold cutAt
  rw [e, ok_bind, ew, ok_bind, e1]

example : cutAt (hcfg 7) .bitL [1, 2, 3, 4, 5] [(2, 5)] 55 = ub .uninit :=
  C63_header rfl (by decide) (by unfold Limits; decide +kernel) (by decide) (fun _ => by decide)
    (by decide +kernel)

/-- Of the sums 1, 3, 6, 10, 15 the last two are lost. -/
theorem C63_wrong : (do
    let (o, s) ← cutAt (hcfg 7) .fixedF [1, 2, 3, 4, 5] [] 48
    let p ← o.prefix (hcfg 7) 5
    ok (s.fail, o.size, p)) = ok (true, 5, 0) := by decide +kernel

/-! ## C64: Hybrid -/

/-- **C64, negation.**  `operator<<` of `Hybrid` reads past the end of the forest, for every tree of
fewer than 2^32 - 1 elements. -/
theorem C64_write {c : HCfg} {A : List Int} {ops : List (Nat × Int)}
    (hn : A.length < 2 ^ 32 - 1) (hl : HLimits c A.length)
    (hi : HIdx c A.length ops) (hb : HBounded c A ops) :
    ∃ o, hrun c A ops = ok o ∧ ∀ os, o.write os = ub .oob := by
  obtain ⟨o, e, h⟩ := hrun_holds hl hi hb
  have hl' := after_length ops A
  exact ⟨o, e, hholds_write h (by rw [hl']; exact hn)⟩

/-- **C64, reading.**  `operator>>` of `Hybrid`, on whatever stream it returns, keeps the number of
elements of the object read into, and its answers inside the first block, whatever the stream holds.
So these are right if the object read into holds the same elements as the one written; nothing else of
the claim is left. -/
theorem C64_read_partial {c : HCfg} {A : List Int} {ops : List (Nat × Int)} (hl : HLimits c A.length)
    (hi : HIdx c A.length ops) (hb : HBounded c A ops) :
    ∃ o, hrun c A ops = ok o ∧ ∀ s o' s', Hybrid.read c o s = ok (o', s') →
      o'.size = A.length ∧ ∀ i, i < 2 ^ c.cut → i ≤ A.length →
        o'.prefix c i = ok (pre (after A ops) i % 2 ^ 64).toNat := by
  obtain ⟨o, e, h⟩ := hrun_holds hl hi hb
  have el := after_length ops A
  refine ⟨o, e, fun s o' s' hr => ⟨?_, fun i h1 h2 => ?_⟩⟩
  · rw [(hread_pres hr).1, h.size, el]
  · rw [hread_prefix hr (by rw [h.flen]; exact Nat.succ_pos _) h1]
    exact hprefix_ok (by rw [el]; exact hl.fits) h (by rw [el]; exact h2)

/-- **C64, negation.**  `operator>>` of `Hybrid` does not return on a stream in the format of the other
classes (both counts with the most significant byte first) of fewer than `2^32` bytes. -/
theorem C64_swapped {c : HCfg} {o : Hybrid} {n m : Nat} {rest : List Nat} (h0 : 0 < m)
    (hm : m < 2 ^ 32) (hr : rest.length < 2 ^ 32) (o' : Hybrid) (s' : IStream) :
    Hybrid.read c o ⟨big 8 n ++ (big 8 m ++ rest), false⟩ ≠ ok (o', s') :=
  hread_swapped h0 hm hr

example : ∃ o, hrun (hy .byteF .bitF 2) [1, 2, 3, 4, 5, 6] [(6, -4)] = ok o ∧ o.write [] = ub .oob := by
  obtain ⟨o, e, h⟩ := C64_write (c := hy .byteF .bitF 2) (A := [1, 2, 3, 4, 5, 6])
    (ops := [(6, -4)]) (by decide)
    (hy_limits (by decide) (by decide) (by unfold Limits; decide +kernel) (by unfold Limits; decide +kernel))
    (by unfold HIdx; decide) (fun _ => by decide)
  exact ⟨o, e, h []⟩

/-- A stream on which `operator>>` returns: the count of small trees has its least significant byte
first.  It holds one tree over blocks and one small tree, with elements 7; `prefix(2)` is still 3. -/
theorem C64_returns : (do
    let t ← run (hcfg 7) .fixedF [28] []
    let b ← run (hcfg 7) .fixedF [7, 7, 7] []
    let x ← b.write (← t.write (big 8 7 ++ (big 8 1).reverse))
    let o ← hrun (hy .fixedF .fixedF 2) [1, 2, 3, 4, 5, 6] []
    let (o', s) ← Hybrid.read (hy .fixedF .fixedF 2) o ⟨x, false⟩
    let p ← o'.prefix (hy .fixedF .fixedF 2) 2
    let q ← o'.prefix (hy .fixedF .fixedF 2) 4
    ok (s.data, s.fail, o'.size, p, q)) = ok ([], false, 6, 3, 28) := by decide +kernel

/-! ## C65: bitCount -/

/-- Bytes an object takes: its members, the pages of its arrays, and its level starts. -/
def bytesOf (o : Obj) : Nat := o.kind.sizeOf + o.mapped

/-- **C65, what `bitCount()` is.**  112 bits more for each array than the object takes, for every
object of less than 2^60 bytes. -/
theorem C65 {o : Obj} (h : o.mapped < 2 ^ 60) :
    o.bitCount = 8 * bytesOf o + 112 * (widths o.kind).length := by
  rw [bitCount_eq h]
  cases o <;> rfl

example : (do
    let o ← run (hcfg 7) .fixedL [1, 2, 3] []
    ok (o.mapped, bytesOf o, o.bitCount)) = ok (4120, 4168, 8 * 4168 + 112) := by decide +kernel

/-- **C65, negation.** -/
theorem C65_neg {o : Obj} (h : o.mapped < 2 ^ 60) : o.bitCount ≠ 8 * bytesOf o := by
  rw [bitCount_eq h]
  unfold bytesOf
  cases o <;> simp [Obj.kind, Kind.arrays]

/-- **C65, `FixedF`.**  In terms of the number of elements: one word per element and one, and a hole
of one word after every `2^14`. -/
theorem C65_fixedF {c : Cfg} {A : List Int} {ops : List (Nat × Int)}
    (hn : A.length < 2 ^ 48) (hi : ∀ op ∈ ops, 0 < op.1) :
    ∃ o, run c .fixedF A ops = ok o ∧
      o.bitCount = 8 * (32 + pages (8 * (A.length + A.length / 2 ^ 14 + 1))) + 112 := by
  obtain ⟨o, e, h⟩ := run_holds (c := c) (k := .fixedF) (A := A) hn trivial hi (fun h => by cases h)
  refine ⟨o, e, ?_⟩
  cases o <;> first | exact h.elim | skip
  rename_i t
  obtain ⟨-, v, hr, -⟩ := h
  have ht := hr.len
  have ep : fixedFPos A.length = A.length + A.length / 2 ^ 14 := by
    unfold fixedFPos
    rw [Nat.shiftRight_eq_div_pow]
  rw [ep] at ht
  have hm : (Obj.fixedF t).mapped = pages (8 * (A.length + A.length / 2 ^ 14 + 1)) := by
    rw [Obj.mapped, ht]
  rw [bitCount_eq (by rw [hm]; unfold pages; omega), hm]
  rfl

example : ∃ o, run (hcfg 7) .fixedF [1, 2, 3] [(2, 5)] = ok o ∧ o.bitCount = 33136 := by
  obtain ⟨o, e, h⟩ := C65_fixedF (c := hcfg 7) (A := [1, 2, 3]) (ops := [(2, 5)]) (by decide) (by decide)
  exact ⟨o, e, h.trans (by decide +kernel)⟩

/-- Bytes a `Hybrid` takes: its own members, the large tree, and the small ones. -/
def hbytesOf (o : Hybrid) : Nat :=
  48 + bytesOf o.top + sumTo (fun i => bytesOf (o.forest.f i)) o.forest.len

/-- **C65, `Hybrid`.** -/
theorem C65_hybrid {c : HCfg} {A : List Int} {ops : List (Nat × Int)} (hl : HLimits c A.length)
    (hi : HIdx c A.length ops) (hb : HBounded c A ops) :
    ∃ o, hrun c A ops = ok o ∧ (hbytesOf o < 2 ^ 58 →
      ∃ b, o.bitCount c = ok b ∧ b + 336 = 8 * hbytesOf o + c.bottom.sizeOf +
        112 * ((widths c.top).length + (A.length / 2 ^ c.cut + 1) * (widths c.bottom).length)) := by
  obtain ⟨o, e, h⟩ := hrun_holds hl hi hb
  refine ⟨o, e, fun hs => ?_⟩
  have hk : ∀ k : Kind, k.arrays = (widths k).length := fun k => by cases k <;> rfl
  have kt := objHolds_kind h.top
  have el := after_length ops A
  have hlen : o.forest.len = A.length / 2 ^ c.cut + 1 := by rw [h.flen, el]; rfl
  unfold hbytesOf at hs ⊢
  have hmt : o.top.mapped ≤ bytesOf o.top := Nat.le_add_left _ _
  have hbt : o.top.bitCount = 8 * bytesOf o.top + 112 * (widths c.top).length := by
    rw [bitCount_eq (by omega), kt, hk, ← kt]
    rfl
  have hbb : ∀ i, i < o.forest.len →
      (o.forest.f i).bitCount = 8 * bytesOf (o.forest.f i) + 112 * (widths c.bottom).length := by
    intro i hi
    have hle : bytesOf (o.forest.f i) ≤ _ :=
      le_sumTo (fun i => bytesOf (o.forest.f i)) hi
    have hmb : (o.forest.f i).mapped ≤ bytesOf (o.forest.f i) := Nat.le_add_left _ _
    have kb := objHolds_kind (h.bot i (by have := h.flen; omega))
    rw [bitCount_eq (by omega), kb, hk, ← kb]
    rfl
  have hsum := sumTo_congr hbb
  rw [sumTo_affine (fun i => bytesOf (o.forest.f i))] at hsum
  have hw : ∀ k : Kind, (widths k).length ≤ 3 := fun k => by cases k <;> decide
  have h1 := hw c.top
  have h2 := hw c.bottom
  have hq : A.length / 2 ^ c.cut ≤ A.length := Nat.div_le_self _ _
  have hn := hl.size
  have hp : (widths c.bottom).length * o.forest.len ≤ 3 * o.forest.len := Nat.mul_le_mul_right _ h2
  rw [Nat.mul_assoc] at hsum
  refine ⟨_, hbitCount_eq (by rw [hsum, hbt]; omega), ?_⟩
  rw [hsum, hbt, ← hlen, Nat.mul_comm o.forest.len]
  omega

/-- Two small trees and a large one. -/
example : (do
    let o ← hrun (hy .fixedF .fixedF 2) [1, 2, 3, 4, 5] []
    let b ← o.bitCount (hy .fixedF .fixedF 2)
    ok (hbytesOf o, b)) = ok (12432, 12432 * 8 + 32) := by decide +kernel

end MRS.Props
