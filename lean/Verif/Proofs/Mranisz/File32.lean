import Verif.Model.Mranisz.File32
import Verif.Proofs.Mranisz.FileRank
import Verif.Proofs.Mranisz.CF32

/-!
# `save` and `load` of the 32-bit rank classes
-/

set_option autoImplicit false

namespace MRS.Mran
open Outcome

theorem cell4_length (x : Option Nat) : (cell4 x).length = 4 := by
  cases x <;> rfl

theorem value4_cell4 {x : Option Nat} (h : ∀ v, x = some v → v < W32) : value8 (cell4 x) = x := by
  cases x with
  | none => rfl
  | some v =>
    have := h v rfl
    simp only [W32] at this
    show some _ = some _
    congr 1
    simp only [BitVec.toNat_ofNat, Nat.shiftRight_eq_div_pow]
    omega

/-- The bytes of cells `k`, …, `k + n - 1`. -/
def cells4 (f : Nat → Option Nat) : Nat → Nat → File
  | _, 0 => []
  | k, n + 1 => cell4 (f k) ++ cells4 f (k + 1) n

theorem cells4_length (f : Nat → Option Nat) : ∀ n k, (cells4 f k n).length = 4 * n
  | 0, _ => rfl
  | n + 1, k => by
    unfold cells4
    rw [List.length_append, cell4_length, cells4_length f n]
    omega

theorem fwrite4_ok {v : Vec (Option Nat)} {n : Nat} (h : n ≤ v.len) (f : File) :
    fwrite4 v n f = ok (f ++ cells4 v.f 0 n) := by
  unfold fwrite4
  obtain ⟨g, e, hg⟩ := forN_inv (body := fun i (f : File) => do
      let x ← v.get i
      ok (f ++ cell4 x))
    (fun k g => g ++ cells4 v.f k (n - k) = f ++ cells4 v.f 0 n) n f rfl
    (by
      intro k g hk hg
      rw [Vec.get_ok (by omega), ok_bind]
      refine ⟨_, rfl, ?_⟩
      rw [← hg, show n - k = n - (k + 1) + 1 by omega, List.append_assoc]
      rfl)
  rw [e, ← hg, Nat.sub_self]
  show ok g = ok (g ++ [])
  rw [List.append_nil]

theorem freadHead4_ok {v : Nat} (h : v < W32) (f : File) : freadHead4 (cell4 (some v) ++ f) = ok (v, f) := by
  unfold freadHead4
  have hl := cell4_length (some v)
  rw [if_neg (by rw [List.length_append]; omega), List.take_append_of_le_length (by omega),
    List.take_of_length_le (by omega), value4_cell4 (by intro w e; injection e with e; omega)]
  simp only []
  rw [List.drop_append_of_le_length (by omega), List.drop_of_length_le (by omega)]
  rfl

theorem freadHead4_cut {f : File} (h : f.length < 4) : freadHead4 f = abort := by
  unfold freadHead4
  rw [if_pos h]

theorem fread4_ok {v w : Vec (Option Nat)} {n : Nat} (hv : n ≤ v.len)
    (hw : ∀ i, i < n → ∀ x, w.f i = some x → x < W32) (f : File) :
    fread4 v n (cells4 w.f 0 n ++ f) = ok (⟨v.len, fun i => if i < n then w.f i else v.f i⟩, f) := by
  unfold fread4
  have hl := cells4_length w.f n 0
  rw [if_neg (by rw [List.length_append]; omega)]
  obtain ⟨⟨v', g⟩, e, h1, h2, h3⟩ := forN_inv (body := fun i (p : Vec (Option Nat) × File) => do
      let v ← p.1.set i (value8 (p.2.take 4))
      ok (v, p.2.drop 4))
    (fun k p => p.1.len = v.len ∧ (∀ i, p.1.f i = if i < k then w.f i else v.f i) ∧
      p.2 = cells4 w.f k (n - k) ++ f) n (v, cells4 w.f 0 n ++ f) ⟨rfl, fun i => by simp, rfl⟩
    (by
      rintro k ⟨v', g⟩ hk ⟨h1, h2, h3⟩
      simp only [] at h1 h2 h3
      have hc := cell4_length (w.f k)
      rw [show n - k = n - (k + 1) + 1 by omega] at h3
      unfold cells4 at h3
      rw [List.append_assoc] at h3
      rw [h3, List.take_append_of_le_length (by omega), List.take_of_length_le (by omega), value4_cell4 (hw k hk),
        List.drop_append_of_le_length (by omega), List.drop_of_length_le (by omega), Vec.set_ok _ (by rw [h1]; omega), ok_bind]
      refine ⟨_, rfl, h1, fun i => ?_, rfl⟩
      show (if i = k then w.f k else v'.f i) = _
      rw [h2]
      by_cases hik : i = k
      · subst hik
        rw [if_pos rfl, if_pos (by omega)]
      · rw [if_neg hik]
        by_cases hi : i < k
        · rw [if_pos hi, if_pos (by omega)]
        · rw [if_neg hi, if_neg (by omega)])
  rw [e]
  simp only [] at h1 h2 h3
  rw [Nat.sub_self] at h3
  congr 1
  exact Prod.ext (Vec.ext' h1 h2) h3

/-- The bytes of an array of `unsigned int` with its length, and of one of `unsigned long long`. -/
def block4 (v : Vec (Option Nat)) (n : Nat) : File := cell4 (some n) ++ cells4 v.f 0 n

def block48 (v : Vec (Option Nat)) (n : Nat) : File := cell4 (some n) ++ cells8 v.f 0 n

theorem block4_length (v : Vec (Option Nat)) (n : Nat) : (block4 v n).length = 4 + 4 * n := by
  unfold block4
  rw [List.length_append, cell4_length, cells4_length]

theorem block48_length (v : Vec (Option Nat)) (n : Nat) : (block48 v n).length = 4 + 8 * n := by
  unfold block48
  rw [List.length_append, cell4_length, cells8_length]

/-- Values that fit. -/
def Fits32 (v : Vec (Option Nat)) (n : Nat) : Prop := n < W32 ∧ ∀ i, i < n → ∀ x, v.f i = some x → x < W32

theorem saveInts_ok {v : Vec (Option Nat)} {n : Nat} (h : n ≤ v.len) (f : File) :
    saveInts v n f = ok (f ++ block4 v n) := by
  unfold saveInts block4
  simp only []
  by_cases hn : n > 0
  · rw [if_pos hn, fwrite4_ok h, List.append_assoc]
  · have : n = 0 := by omega
    subst this
    rw [if_neg hn]
    show _ = ok (f ++ (cell4 (some 0) ++ []))
    rw [List.append_nil]

theorem loadInts_ok {v : Vec (Option Nat)} {n : Nat} (hf : Fits32 v n) (a : Nat) (f : File) :
    loadInts a (block4 v n ++ f) = ok (clip v n (room32 a), n, f) := by
  unfold loadInts block4 clip
  rw [List.append_assoc, freadHead4_ok hf.1, ok_bind]
  simp only []
  by_cases hn : n > 0
  · rw [if_pos hn, if_neg (by omega), fread4_ok (v := fresh (n + room32 a)) (show n ≤ n + room32 a by omega) hf.2]
    rfl
  · have : n = 0 := by omega
    subst this
    rfl

theorem loadInts_cut {v : Vec (Option Nat)} {n k : Nat} (hf : n < W32) (a : Nat) (hk : k < 4 + 4 * n) :
    loadInts a ((block4 v n).take k) = abort := by
  unfold loadInts block4
  have hc := cell4_length (some n)
  have hl := cells4_length v.f n 0
  by_cases h : k < 4
  · rw [freadHead4_cut (by rw [List.length_take]; omega)]
    rfl
  · rw [List.take_append, List.take_of_length_le (by omega), freadHead4_ok hf, ok_bind]
    simp only []
    rw [if_pos (by omega)]
    unfold fread4
    rw [if_pos (by rw [List.length_take]; omega)]
    rfl

theorem saveLongs_ok {v : Vec (Option Nat)} {n : Nat} (h : n ≤ v.len) (f : File) :
    saveLongs v n f = ok (f ++ block48 v n) := by
  unfold saveLongs block48
  simp only []
  by_cases hp : n > 0
  · rw [if_pos hp, fwrite8_ok h, List.append_assoc]
  · have : n = 0 := by omega
    subst this
    rw [if_neg hp]
    show _ = ok (f ++ (cell4 (some 0) ++ []))
    rw [List.append_nil]

theorem loadLongs_ok {v : Vec (Option Nat)} {n : Nat} (hf : Fits v n) (hn : n < W32) (a : Nat) (f : File) :
    loadLongs a (block48 v n ++ f) = ok (clip v n (room a), n, f) := by
  unfold loadLongs block48 clip
  rw [List.append_assoc, freadHead4_ok hn, ok_bind]
  simp only []
  by_cases hp : n > 0
  · rw [if_pos hp, if_neg (by omega), fread8_ok (v := fresh (n + room a)) (show n ≤ n + room a by omega) hf.2]
    rfl
  · have : n = 0 := by omega
    subst this
    rfl

theorem loadLongs_cut {v : Vec (Option Nat)} {n k : Nat} (hf : n < W32) (a : Nat) (hk : k < 4 + 8 * n) :
    loadLongs a ((block48 v n).take k) = abort := by
  unfold loadLongs block48
  have hc := cell4_length (some n)
  have hl := cells8_length v.f n 0
  by_cases h : k < 4
  · rw [freadHead4_cut (by rw [List.length_take]; omega)]
    rfl
  · rw [List.take_append, List.take_of_length_le (by omega), freadHead4_ok hf, ok_bind]
    simp only []
    rw [if_pos (by omega)]
    unfold fread8
    rw [if_pos (by rw [List.length_take]; omega)]
    rfl

/-! ## The two classes -/

theorem clip_halves (v : Vec (Option Half)) (n e : Nat) : toHalves (clip (toNatsH v) n e) = clip v n e := by
  refine Vec.ext' ?_ (fun i => ?_)
  · unfold clip toHalves
    split <;> rfl
  · unfold clip toHalves toNatsH
    by_cases hn : n = 0
    · rw [if_pos hn, if_pos hn]
      rfl
    · rw [if_neg hn, if_neg hn]
      simp only []
      by_cases hi : i < n
      · rw [if_pos hi, if_pos hi]
        cases v.f i with
        | none => rfl
        | some w =>
          show some (BitVec.ofNat 32 w.toNat) = some w
          rw [BitVec.ofNat_toNat, BitVec.setWidth_eq]
      · rw [if_neg hi, if_neg hi]
        rfl

theorem fits_halves (v : Vec (Option Half)) {n : Nat} (hn : n < W32) : Fits32 (toNatsH v) n := by
  refine ⟨hn, fun i _ x hx => ?_⟩
  unfold toNatsH at hx
  simp only [] at hx
  cases h : v.f i with
  | none => rw [h] at hx; cases hx
  | some w =>
    rw [h] at hx
    injection hx with hx
    subst hx
    exact w.isLt

theorem Basic.save32_ok {x : Basic} (h1 : x.ranksLen ≤ x.ranks.len) (h2 : x.bitsLen ≤ x.bits.len) (f : File) :
    x.save32 f = ok (f ++ (cell4 (some x.textLen) ++ (block4 x.ranks x.ranksLen ++ block48 (toNats x.bits) x.bitsLen))) := by
  unfold Basic.save32
  simp only []
  rw [saveInts_ok h1, ok_bind, saveLongs_ok (v := toNats x.bits) h2]
  simp only [List.append_assoc]

/-- The object that `load` makes. -/
def Basic.back32 (x : Basic) (aB aR : Nat) : Basic :=
  ⟨clip x.ranks x.ranksLen (room32 aR), x.ranksLen, clip x.bits x.bitsLen (room aB), x.bitsLen, x.textLen⟩

theorem Basic.load32_ok {x : Basic} (ht : x.textLen < W32) (hr : Fits32 x.ranks x.ranksLen) (hb : x.bitsLen < W32)
    (aB aR : Nat) (f : File) :
    Basic.load32 aB aR ((cell4 (some x.textLen) ++ (block4 x.ranks x.ranksLen ++ block48 (toNats x.bits) x.bitsLen)) ++ f) =
      ok (x.back32 aB aR, f) := by
  unfold Basic.load32
  simp only [List.append_assoc]
  rw [freadHead4_ok ht, ok_bind]
  simp only []
  rw [loadInts_ok hr, ok_bind]
  simp only []
  rw [loadLongs_ok (fits_words x.bits (n := x.bitsLen) (by simp only [W64]; simp only [W32] at hb; omega)) hb, ok_bind]
  simp only []
  rw [clip_words]
  rfl

theorem Basic.load32_cut {x : Basic} (ht : x.textLen < W32) (hr : Fits32 x.ranks x.ranksLen) (hb : x.bitsLen < W32)
    (aB aR k : Nat) (hk : k < 12 + 4 * x.ranksLen + 8 * x.bitsLen) :
    Basic.load32 aB aR ((cell4 (some x.textLen) ++ (block4 x.ranks x.ranksLen ++ block48 (toNats x.bits) x.bitsLen)).take k) =
      abort := by
  unfold Basic.load32
  have h1 := cell4_length (some x.textLen)
  have h2 := block4_length x.ranks x.ranksLen
  rcases take_two (cell4 (some x.textLen)) (block4 x.ranks x.ranksLen ++ block48 (toNats x.bits) x.bitsLen) k with
    ⟨h, e⟩ | ⟨h, e⟩
  · rw [e, freadHead4_cut (by rw [List.length_take]; omega)]
    rfl
  · rw [e, freadHead4_ok ht, ok_bind]
    simp only []
    rcases take_two (block4 x.ranks x.ranksLen) (block48 (toNats x.bits) x.bitsLen) (k - (cell4 (some x.textLen)).length) with
      ⟨h', e'⟩ | ⟨h', e'⟩
    · rw [e', loadInts_cut hr.1 _ (by omega)]
      rfl
    · rw [e', loadInts_ok hr, ok_bind]
      simp only []
      rw [loadLongs_cut hb _ (by omega)]
      rfl

theorem CF32.save_ok {x : CF32} (h : x.bitsLen ≤ x.bits.len) (f : File) :
    x.save f = ok (f ++ (cell4 (some x.textLen) ++ (cell4 (some x.border) ++ (cell4 (some x.blockBorder) ++
      block4 (toNatsH x.bits) x.bitsLen)))) := by
  unfold CF32.save
  simp only []
  rw [saveInts_ok (v := toNatsH x.bits) h]
  simp only [List.append_assoc]

def CF32.back (x : CF32) (aB : Nat) : CF32 := ⟨clip x.bits x.bitsLen (room32 aB), x.bitsLen, x.textLen, x.border, x.blockBorder⟩

theorem CF32.load_ok {x : CF32} (ht : x.textLen < W32) (h1 : x.border < W32) (h2 : x.blockBorder < W32) (hb : x.bitsLen < W32)
    (aB : Nat) (f : File) :
    CF32.load aB ((cell4 (some x.textLen) ++ (cell4 (some x.border) ++ (cell4 (some x.blockBorder) ++
      block4 (toNatsH x.bits) x.bitsLen))) ++ f) = ok (x.back aB, f) := by
  unfold CF32.load
  simp only [List.append_assoc]
  rw [freadHead4_ok ht, ok_bind]
  simp only []
  rw [freadHead4_ok h1, ok_bind]
  simp only []
  rw [freadHead4_ok h2, ok_bind]
  simp only []
  rw [loadInts_ok (fits_halves x.bits hb), ok_bind]
  simp only []
  rw [clip_halves]
  rfl

theorem CF32.load_cut {x : CF32} (ht : x.textLen < W32) (h1 : x.border < W32) (h2 : x.blockBorder < W32) (hb : x.bitsLen < W32)
    (aB k : Nat) (hk : k < 16 + 4 * x.bitsLen) :
    CF32.load aB ((cell4 (some x.textLen) ++ (cell4 (some x.border) ++ (cell4 (some x.blockBorder) ++
      block4 (toNatsH x.bits) x.bitsLen))).take k) = abort := by
  unfold CF32.load
  have c1 := cell4_length (some x.textLen)
  have c2 := cell4_length (some x.border)
  have c3 := cell4_length (some x.blockBorder)
  rcases take_two (cell4 (some x.textLen)) (cell4 (some x.border) ++ (cell4 (some x.blockBorder) ++
      block4 (toNatsH x.bits) x.bitsLen)) k with ⟨h, e⟩ | ⟨h, e⟩
  · rw [e, freadHead4_cut (by rw [List.length_take]; omega)]
    rfl
  rw [e, freadHead4_ok ht, ok_bind]
  simp only []
  rcases take_two (cell4 (some x.border)) (cell4 (some x.blockBorder) ++
      block4 (toNatsH x.bits) x.bitsLen) (k - (cell4 (some x.textLen)).length) with ⟨h', e'⟩ | ⟨h', e'⟩
  · rw [e', freadHead4_cut (by rw [List.length_take]; omega)]
    rfl
  rw [e', freadHead4_ok h1, ok_bind]
  simp only []
  rcases take_two (cell4 (some x.blockBorder)) (block4 (toNatsH x.bits) x.bitsLen)
    (k - (cell4 (some x.textLen)).length - (cell4 (some x.border)).length) with ⟨h'', e''⟩ | ⟨h'', e''⟩
  · rw [e'', freadHead4_cut (by rw [List.length_take]; omega)]
    rfl
  rw [e'', freadHead4_ok h2, ok_bind]
  simp only []
  rw [loadInts_cut hb _ (by omega)]
  rfl

/-! ## The queries see only the cells -/

theorem rankStd32_same {x y : Basic} (h1 : Same x.ranks y.ranks) (h2 : Same x.bits y.bits) (i : Nat) :
    Eqv (rankStd32 x i) (rankStd32 y i) := by
  unfold rankStd32
  refine Eqv.bind (h1 _) (fun a => Eqv.bind (h1 _) (fun b => Eqv.ite (Eqv.refl _) ?_))
  exact Eqv.bind (h1 _) (fun c => Eqv.bind (inBlock_same h2 _ _ _) (fun _ => Eqv.refl _))

theorem rankBch32_same {x y : Basic} (h1 : Same x.ranks y.ranks) (h2 : Same x.bits y.bits) (i : Nat) :
    Eqv (rankBch32 x i) (rankBch32 y i) := by
  unfold rankBch32
  simp only []
  refine Eqv.bind (h1 _) (fun b0 => ?_)
  refine Eqv.bind (Eqv.ite (Eqv.bind (Eqv.bind (h1 _) (fun _ => Eqv.refl _)) (fun _ => Eqv.refl _)) (Eqv.refl _))
    (fun rank => ?_)
  refine Eqv.bind (Eqv.ite (h1 _) (Eqv.bind (Eqv.bind (h1 _) (fun _ => Eqv.refl _)) (fun _ => Eqv.refl _)))
    (fun rank2 => ?_)
  refine Eqv.ite (Eqv.refl _) (Eqv.bind (Eqv.ite ?_ (h1 _)) (fun off =>
    Eqv.bind (inBlock_same h2 _ _ _) (fun _ => Eqv.refl _)))
  exact Eqv.bind (h1 _) (fun _ => Eqv.bind (h1 _) (fun _ => Eqv.refl _))

theorem loadPair_same {v w : Vec (Option Half)} (h : Same v w) (strict : Bool) (p : Nat) :
    Eqv (loadPair strict v p) (loadPair strict w p) := by
  unfold loadPair
  exact Eqv.ite (Eqv.refl _) (Eqv.bind (h _) (fun _ => Eqv.bind (h _) (fun _ => Eqv.refl _)))

theorem inBlock32_same {v w : Vec (Option Half)} (h : Same v w) (strict : Bool) (off rank i : Nat) :
    Eqv (inBlock32 strict v off rank i) (inBlock32 strict w off rank i) := by
  unfold inBlock32
  refine Eqv.bind (Eqv.forN (fun k r => Eqv.bind (loadPair_same h _ _) (fun _ => Eqv.refl _)) _ _) (fun r => ?_)
  exact Eqv.bind (loadPair_same h _ _) (fun _ => Eqv.refl _)

theorem rankCF32_same {x y : CF32} (h : Same x.bits y.bits) (hb : x.border = y.border)
    (hbb : x.blockBorder = y.blockBorder) (strict : Bool) (i : Nat) :
    Eqv (rankCF32 strict x i) (rankCF32 strict y i) := by
  unfold rankCF32
  simp only [hb, hbb]
  refine Eqv.ite ?_ ?_
  · exact Eqv.bind (h _) (fun _ => Eqv.bind (h _) (fun _ => Eqv.ite (Eqv.refl _)
      (Eqv.bind (inBlock32_same h _ _ _ _) (fun _ => Eqv.refl _))))
  · exact Eqv.bind (h _) (fun _ => Eqv.bind (h _) (fun _ => Eqv.ite (Eqv.refl _)
      (Eqv.bind (h _) (fun _ => Eqv.bind (inBlock32_same h _ _ _ _) (fun _ => Eqv.refl _)))))

/-! ## The values fit -/

theorem std_fits32 {t : Vec Byte} {aR aB : Nat} {x : Basic} (hx : StdOK32 t aR aB x) (hlen : t.len ≤ 2 ^ 32 - 64) :
    Fits32 x.ranks x.ranksLen := by
  obtain ⟨s, hs, hr, hb⟩ := hx.pass
  have h2 := nblk_lt32 hlen
  rw [hx.rl, hr]
  refine ⟨by simp only [W32]; omega, fun i hi v hv => ?_⟩
  by_cases hi2 : i % 2 = 0
  · rw [show i = 2 * (i / 2) by omega, hs.r0 _ (by omega)] at hv
    injection hv with hv
    rw [← hv]
    exact Nat.mod_lt _ (by decide)
  · rw [show i = 2 * (i / 2) + 1 by omega, hs.r1 _ (by omega)] at hv
    injection hv with hv
    have := ne_le t (i / 2)
    rw [← hv]
    simp only [W32]
    omega

theorem bch_fits32 {t : Vec Byte} {g : Nat → Bool} {aR aB : Nat} {x : Basic} (hx : BchOK32 t g aR aB x)
    (hlen : t.len ≤ 2 ^ 32 - 64) : Fits32 x.ranks x.ranksLen := by
  have h2 := nblk_lt32 hlen
  rw [hx.rl]
  refine ⟨by simp only [W32]; omega, fun i hi v hv => ?_⟩
  obtain ⟨b, hb, hf⟩ := hx.sup (i / 19) (by omega)
  have hfi := hf (i % 19) (Nat.mod_lt _ (by decide))
  rw [show 19 * (i / 19) + i % 19 = i by omega, hv] at hfi
  injection hfi with hfi
  rw [hfi]
  have hj : i % 19 < 19 := Nat.mod_lt _ (by decide)
  generalize i % 19 = j at hj
  rcases (show j = 0 ∨ (1 ≤ j ∧ j ≤ 16) ∨ j = 17 ∨ j = 18 by omega) with h | h | h | h
  · rw [h, hb.b0]
    unfold tv32
    split
    · exact Nat.mod_lt _ (by decide)
    · decide
  · rw [show j = j - 1 + 1 by omega, hb.mid _ (by omega)]
    exact acc_lt32 _ _
  · rw [h, hb.off]
    unfold to
    split
    · have := ne_le t (32 * (i / 19))
      simp only [W32]
      omega
    · decide
  · rw [h, hb.flags]
    exact flg32_lt _ _

/-! ## Round trips -/

/-- The bytes of a `RankBasic32`. -/
def Basic.file32 (x : Basic) : File :=
  cell4 (some x.textLen) ++ (block4 x.ranks x.ranksLen ++ block48 (toNats x.bits) x.bitsLen)

theorem Basic.file32_length (x : Basic) : x.file32.length = 12 + 4 * x.ranksLen + 8 * x.bitsLen := by
  unfold Basic.file32
  rw [List.length_append, List.length_append, cell4_length, block4_length, block48_length]
  omega

theorem std_save32 {t : Vec Byte} {aR aB : Nat} {x : Basic} (hx : StdOK32 t aR aB x) (f : File) :
    x.save32 f = ok (f ++ x.file32) := by
  obtain ⟨s, hs, hr, hb⟩ := hx.pass
  exact Basic.save32_ok (by rw [hx.rl, hr, hs.rlen]; omega) (by rw [hx.bl, hb, hs.blen]; omega) f

theorem std_load32 {t : Vec Byte} {aR aB : Nat} {x : Basic} (hx : StdOK32 t aR aB x) (hlen : t.len ≤ 2 ^ 32 - 64)
    (bB bR : Nat) (f : File) :
    Basic.load32 bB bR (x.file32 ++ f) = ok (x.back32 bB bR, f) ∧
      (∀ i, Eqv (rankStd32 (x.back32 bB bR) i) (rankStd32 x i)) ∧
      ∀ k, k < x.file32.length → Basic.load32 bB bR (x.file32.take k) = abort := by
  have h2 := nblk_lt32 hlen
  have h3 := ne_le t (nblk t)
  have ht : x.textLen < W32 := by rw [hx.tl]; simp only [W32]; omega
  have hb : x.bitsLen < W32 := by rw [hx.bl]; simp only [W32]; omega
  refine ⟨Basic.load32_ok ht (std_fits32 hx hlen) hb bB bR f, fun i => ?_, fun k hk => ?_⟩
  · obtain ⟨s, hs, hr, hb⟩ := hx.pass
    apply rankStd32_same
    · exact clip_same (by rw [hx.rl, hr, hs.rlen]; omega) (by rw [hx.rl, hr]; exact hs.rn)
    · exact clip_same (by rw [hx.bl, hb, hs.blen]; omega) (by rw [hx.bl, hb]; exact hs.bn)
  · exact Basic.load32_cut ht (std_fits32 hx hlen) hb bB bR k (by rw [← Basic.file32_length]; exact hk)

theorem bch_save32 {t : Vec Byte} {g : Nat → Bool} {aR aB : Nat} {x : Basic} (hx : BchOK32 t g aR aB x) (f : File) :
    x.save32 f = ok (f ++ x.file32) :=
  Basic.save32_ok (by rw [hx.rl, hx.rlen]; omega) (by rw [hx.bl, hx.blen]; omega) f

theorem bch_load32 {t : Vec Byte} {g : Nat → Bool} {aR aB : Nat} {x : Basic} (hx : BchOK32 t g aR aB x)
    (hlen : t.len ≤ 2 ^ 32 - 64) (bB bR : Nat) (f : File) :
    Basic.load32 bB bR (x.file32 ++ f) = ok (x.back32 bB bR, f) ∧
      (∀ i, Eqv (rankBch32 (x.back32 bB bR) i) (rankBch32 x i)) ∧
      ∀ k, k < x.file32.length → Basic.load32 bB bR (x.file32.take k) = abort := by
  have h2 := nblk_lt32 hlen
  have h3 := ne_le t (nblk t)
  have ht : x.textLen < W32 := by rw [hx.tl]; simp only [W32]; omega
  have hb : x.bitsLen < W32 := by rw [hx.bl]; simp only [W32]; omega
  refine ⟨Basic.load32_ok ht (bch_fits32 hx hlen) hb bB bR f, fun i => ?_, fun k hk => ?_⟩
  · apply rankBch32_same
    · exact clip_same (by rw [hx.rl, hx.rlen]; omega) (by rw [hx.rl]; exact hx.rn)
    · exact clip_same (by rw [hx.bl, hx.blen]; omega) (by rw [hx.bl]; exact hx.bn)
  · exact Basic.load32_cut ht (bch_fits32 hx hlen) hb bB bR k (by rw [← Basic.file32_length]; exact hk)

/-- The bytes of a `RankCF32`. -/
def CF32.file (x : CF32) : File :=
  cell4 (some x.textLen) ++ (cell4 (some x.border) ++ (cell4 (some x.blockBorder) ++ block4 (toNatsH x.bits) x.bitsLen))

theorem CF32.file_length (x : CF32) : x.file.length = 16 + 4 * x.bitsLen := by
  unfold CF32.file
  rw [List.length_append, List.length_append, List.length_append, cell4_length, cell4_length, cell4_length, block4_length]
  omega

theorem cf32_save {t : Vec Byte} {aB : Nat} {x : CF32} (hx : CF32OK t aB x) (f : File) : x.save f = ok (f ++ x.file) :=
  CF32.save_ok (by rw [hx.bl, hx.len]; omega) f

theorem cf32_load {t : Vec Byte} {aB : Nat} {x : CF32} (hx : CF32OK t aB x) (hlen : t.len ≤ 2 ^ 32 - 64) (bB : Nat) (f : File) :
    CF32.load bB (x.file ++ f) = ok (x.back bB, f) ∧
      (∀ strict i, Eqv (rankCF32 strict (x.back bB) i) (rankCF32 strict x i)) ∧
      ∀ k, k < x.file.length → CF32.load bB (x.file.take k) = abort := by
  have h2 := nblk_lt32 hlen
  have h3 := ne_le t (nblk t)
  have ht : x.textLen < W32 := by rw [hx.tl]; simp only [W32]; omega
  have hb : x.bitsLen < W32 := by rw [hx.bl]; simp only [W32]; omega
  have h4 : x.border < W32 := by rw [hx.border]; simp only [W32]; omega
  have h5 : x.blockBorder < W32 := by rw [hx.bb]; simp only [W32]; omega
  refine ⟨CF32.load_ok ht h4 h5 hb bB f, fun strict i => ?_, fun k hk => ?_⟩
  · refine rankCF32_same (x := x.back bB) (y := x) (clip_same ?_ ?_) rfl rfl strict i
    · rw [hx.bl, hx.len]; omega
    · rw [hx.bl]; exact hx.none
  · exact CF32.load_cut ht h4 h5 hb bB k (by rw [← CF32.file_length]; exact hk)

end MRS.Mran
