import Verif.Model.Mranisz.File

/-!
# What `save` writes and `load` reads back
-/

set_option autoImplicit false

namespace MRS.Mran
open Outcome

theorem cell8_length (x : Option Nat) : (cell8 x).length = 8 := by
  cases x <;> rfl

theorem value8_cell8 {x : Option Nat} (h : ∀ v, x = some v → v < W64) : value8 (cell8 x) = x := by
  cases x with
  | none => rfl
  | some v =>
    have := h v rfl
    simp only [W64] at this
    show some _ = some _
    congr 1
    simp only [BitVec.toNat_ofNat, Nat.shiftRight_eq_div_pow]
    omega

/-- The bytes of cells `k`, …, `k + n - 1`. -/
def cells8 (f : Nat → Option Nat) : Nat → Nat → File
  | _, 0 => []
  | k, n + 1 => cell8 (f k) ++ cells8 f (k + 1) n

def cells1 (f : Nat → Option Byte) : Nat → Nat → File
  | _, 0 => []
  | k, n + 1 => f k :: cells1 f (k + 1) n

theorem cells8_length (f : Nat → Option Nat) : ∀ n k, (cells8 f k n).length = 8 * n
  | 0, _ => rfl
  | n + 1, k => by
    unfold cells8
    rw [List.length_append, cell8_length, cells8_length f n]
    omega

theorem cells1_length (f : Nat → Option Byte) : ∀ n k, (cells1 f k n).length = n
  | 0, _ => rfl
  | n + 1, k => by
    unfold cells1
    rw [List.length_cons, cells1_length f n]

theorem fwrite8_ok {v : Vec (Option Nat)} {n : Nat} (h : n ≤ v.len) (f : File) :
    fwrite8 v n f = ok (f ++ cells8 v.f 0 n) := by
  unfold fwrite8
  obtain ⟨g, e, hg⟩ := forN_inv (body := fun i (f : File) => do
      let x ← v.get i
      ok (f ++ cell8 x))
    (fun k g => g ++ cells8 v.f k (n - k) = f ++ cells8 v.f 0 n) n f rfl
    (by
      intro k g hk hg
      rw [Vec.get_ok (by omega), ok_bind]
      refine ⟨_, rfl, ?_⟩
      rw [← hg, show n - k = n - (k + 1) + 1 by omega, List.append_assoc]
      rfl)
  rw [e, ← hg, Nat.sub_self]
  show ok g = ok (g ++ [])
  rw [List.append_nil]

theorem fwrite1_ok {v : Vec (Option Byte)} {n : Nat} (h : n ≤ v.len) (f : File) :
    fwrite1 v n f = ok (f ++ cells1 v.f 0 n) := by
  unfold fwrite1
  obtain ⟨g, e, hg⟩ := forN_inv (body := fun i (f : File) => do
      let x ← v.get i
      ok (f ++ [x]))
    (fun k g => g ++ cells1 v.f k (n - k) = f ++ cells1 v.f 0 n) n f rfl
    (by
      intro k g hk hg
      rw [Vec.get_ok (by omega), ok_bind]
      refine ⟨_, rfl, ?_⟩
      rw [← hg, show n - k = n - (k + 1) + 1 by omega, List.append_assoc]
      rfl)
  rw [e, ← hg, Nat.sub_self]
  show ok g = ok (g ++ [])
  rw [List.append_nil]

theorem freadHead_ok {v : Nat} (h : v < W64) (f : File) : freadHead (cell8 (some v) ++ f) = ok (v, f) := by
  unfold freadHead
  have hl := cell8_length (some v)
  rw [if_neg (by rw [List.length_append]; omega), List.take_append_of_le_length (by omega),
    List.take_of_length_le (by omega), value8_cell8 (by intro w e; injection e with e; omega)]
  simp only []
  rw [List.drop_append_of_le_length (by omega), List.drop_of_length_le (by omega)]
  rfl

theorem freadHead_cut {f : File} (h : f.length < 8) : freadHead f = abort := by
  unfold freadHead
  rw [if_pos h]

theorem Vec.ext' {α : Type} {v w : Vec α} (h1 : v.len = w.len) (h2 : ∀ i, v.f i = w.f i) : v = w := by
  cases v
  cases w
  cases h1
  cases (funext h2)
  rfl

theorem fread8_ok {v w : Vec (Option Nat)} {n : Nat} (hv : n ≤ v.len)
    (hw : ∀ i, i < n → ∀ x, w.f i = some x → x < W64) (f : File) :
    fread8 v n (cells8 w.f 0 n ++ f) = ok (⟨v.len, fun i => if i < n then w.f i else v.f i⟩, f) := by
  unfold fread8
  have hl := cells8_length w.f n 0
  rw [if_neg (by rw [List.length_append]; omega)]
  obtain ⟨⟨v', g⟩, e, h1, h2, h3⟩ := forN_inv (body := fun i (p : Vec (Option Nat) × File) => do
      let v ← p.1.set i (value8 (p.2.take 8))
      ok (v, p.2.drop 8))
    (fun k p => p.1.len = v.len ∧ (∀ i, p.1.f i = if i < k then w.f i else v.f i) ∧
      p.2 = cells8 w.f k (n - k) ++ f) n (v, cells8 w.f 0 n ++ f) ⟨rfl, fun i => by simp, rfl⟩
    (by
      rintro k ⟨v', g⟩ hk ⟨h1, h2, h3⟩
      simp only [] at h1 h2 h3
      have hc := cell8_length (w.f k)
      rw [show n - k = n - (k + 1) + 1 by omega] at h3
      unfold cells8 at h3
      rw [List.append_assoc] at h3
      rw [h3, List.take_append_of_le_length (by omega), List.take_of_length_le (by omega), value8_cell8 (hw k hk),
        List.drop_append_of_le_length (by omega), List.drop_of_length_le (by omega), Vec.set_ok _ (by rw [h1]; omega), ok_bind]
      refine ⟨_, rfl, h1, fun i => ?_, rfl⟩
      show (if i = k then w.f k else v'.f i) = _
      rw [h2]
      by_cases hik : i = k
      · subst hik
        rw [if_pos rfl, if_pos (by omega)]
      · rw [if_neg hik]
        by_cases hi : i < k
        · rw [if_pos hi, if_pos (by omega)]
        · rw [if_neg hi, if_neg (by omega)])
  rw [e]
  simp only [] at h1 h2 h3
  rw [Nat.sub_self] at h3
  congr 1
  exact Prod.ext (Vec.ext' h1 h2) h3

theorem fread1_ok {v w : Vec (Option Byte)} {n : Nat} (hv : n ≤ v.len) (f : File) :
    fread1 v n (cells1 w.f 0 n ++ f) = ok (⟨v.len, fun i => if i < n then w.f i else v.f i⟩, f) := by
  unfold fread1
  have hl := cells1_length w.f n 0
  rw [if_neg (by rw [List.length_append]; omega)]
  obtain ⟨⟨v', g⟩, e, h1, h2, h3⟩ := forN_inv (body := fun i (p : Vec (Option Byte) × File) => do
      let v ← p.1.set i (p.2.headD none)
      ok (v, p.2.drop 1))
    (fun k p => p.1.len = v.len ∧ (∀ i, p.1.f i = if i < k then w.f i else v.f i) ∧
      p.2 = cells1 w.f k (n - k) ++ f) n (v, cells1 w.f 0 n ++ f) ⟨rfl, fun i => by simp, rfl⟩
    (by
      rintro k ⟨v', g⟩ hk ⟨h1, h2, h3⟩
      simp only [] at h1 h2 h3
      rw [show n - k = n - (k + 1) + 1 by omega] at h3
      unfold cells1 at h3
      rw [h3, Vec.set_ok _ (by rw [h1]; omega), ok_bind]
      refine ⟨_, rfl, h1, fun i => ?_, rfl⟩
      show (if i = k then w.f k else v'.f i) = _
      rw [h2]
      by_cases hik : i = k
      · subst hik
        rw [if_pos rfl, if_pos (by omega)]
      · rw [if_neg hik]
        by_cases hi : i < k
        · rw [if_pos hi, if_pos (by omega)]
        · rw [if_neg hi, if_neg (by omega)])
  rw [e]
  simp only [] at h1 h2 h3
  rw [Nat.sub_self] at h3
  congr 1
  exact Prod.ext (Vec.ext' h1 h2) h3

/-- The array that is read back. -/
def clip {α : Type} (v : Vec (Option α)) (n extra : Nat) : Vec (Option α) :=
  if n = 0 then fresh 0 else ⟨n + extra, fun i => if i < n then v.f i else none⟩

/-- The bytes of an array with its length. -/
def block8 (v : Vec (Option Nat)) (n : Nat) : File := cell8 (some n) ++ cells8 v.f 0 n

def block1 (v : Vec (Option Byte)) (n : Nat) : File := cell8 (some n) ++ cells1 v.f 0 n

theorem block8_length (v : Vec (Option Nat)) (n : Nat) : (block8 v n).length = 8 + 8 * n := by
  unfold block8
  rw [List.length_append, cell8_length, cells8_length]

theorem block1_length (v : Vec (Option Byte)) (n : Nat) : (block1 v n).length = 8 + n := by
  unfold block1
  rw [List.length_append, cell8_length, cells1_length]

theorem saveWords_ok {v : Vec (Option Nat)} {n : Nat} (h : n ≤ v.len) (f : File) :
    saveWords v n f = ok (f ++ block8 v n) := by
  unfold saveWords block8
  simp only []
  by_cases hn : n > 0
  · rw [if_pos hn, fwrite8_ok h, List.append_assoc]
  · have : n = 0 := by omega
    subst this
    rw [if_neg hn]
    show _ = ok (f ++ (cell8 (some 0) ++ []))
    rw [List.append_nil]

/-- Values that fit. -/
def Fits (v : Vec (Option Nat)) (n : Nat) : Prop := n < W64 ∧ ∀ i, i < n → ∀ x, v.f i = some x → x < W64

theorem loadWords_ok {v : Vec (Option Nat)} {n : Nat} (hf : Fits v n) (a : Nat) (f : File) :
    loadWords a (block8 v n ++ f) = ok (clip v n (room a), n, f) := by
  unfold loadWords block8 clip
  rw [List.append_assoc, freadHead_ok hf.1, ok_bind]
  simp only []
  by_cases hn : n > 0
  · rw [if_pos hn, if_neg (by omega), fread8_ok (v := fresh (n + room a)) (show n ≤ n + room a by omega) hf.2]
    rfl
  · have : n = 0 := by omega
    subst this
    rfl

theorem loadWords_cut {v : Vec (Option Nat)} {n k : Nat} (hf : n < W64) (a : Nat) (hk : k < 8 + 8 * n) :
    loadWords a ((block8 v n).take k) = abort := by
  unfold loadWords block8
  have hc := cell8_length (some n)
  have hl := cells8_length v.f n 0
  by_cases h : k < 8
  · rw [freadHead_cut (by rw [List.length_take]; omega)]
    rfl
  · rw [List.take_append, List.take_of_length_le (by omega), freadHead_ok hf, ok_bind]
    simp only []
    rw [if_pos (by omega)]
    unfold fread8
    rw [if_pos (by rw [List.length_take]; omega)]
    rfl

/-- A prefix of two parts is a proper prefix of the first, or the first and a prefix of the second. -/
theorem take_two (A B : File) (k : Nat) :
    (k < A.length ∧ (A ++ B).take k = A.take k) ∨
      (A.length ≤ k ∧ (A ++ B).take k = A ++ B.take (k - A.length)) := by
  by_cases h : k < A.length
  · exact Or.inl ⟨h, List.take_append_of_le_length (by omega)⟩
  · refine Or.inr ⟨by omega, ?_⟩
    rw [List.take_append, List.take_of_length_le (by omega)]

/-! ## The three classes -/

theorem Basic.save_ok {x : Basic} (h1 : x.ranksLen ≤ x.ranks.len) (h2 : x.bitsLen ≤ x.bits.len) (f : File) :
    x.save f = ok (f ++ (cell8 (some x.textLen) ++ (block8 x.ranks x.ranksLen ++ block8 (toNats x.bits) x.bitsLen))) := by
  unfold Basic.save
  simp only []
  rw [saveWords_ok h1, ok_bind, saveWords_ok (v := toNats x.bits) h2]
  simp only [List.append_assoc]

/-- The object that `load` makes. -/
def Basic.back (x : Basic) (aB aR : Nat) : Basic :=
  ⟨clip x.ranks x.ranksLen (room aR), x.ranksLen, clip x.bits x.bitsLen (room aB), x.bitsLen, x.textLen⟩

theorem clip_words (v : Vec (Option Word)) (n e : Nat) : toWords (clip (toNats v) n e) = clip v n e := by
  refine Vec.ext' ?_ (fun i => ?_)
  · unfold clip toWords
    split <;> rfl
  · unfold clip toWords toNats
    by_cases hn : n = 0
    · rw [if_pos hn, if_pos hn]
      rfl
    · rw [if_neg hn, if_neg hn]
      simp only []
      by_cases hi : i < n
      · rw [if_pos hi, if_pos hi]
        cases v.f i with
        | none => rfl
        | some w =>
          show some (BitVec.ofNat 64 w.toNat) = some w
          rw [BitVec.ofNat_toNat, BitVec.setWidth_eq]
      · rw [if_neg hi, if_neg hi]
        rfl

theorem fits_words (v : Vec (Option Word)) {n : Nat} (hn : n < W64) : Fits (toNats v) n := by
  refine ⟨hn, fun i _ x hx => ?_⟩
  unfold toNats at hx
  simp only [] at hx
  cases h : v.f i with
  | none => rw [h] at hx; cases hx
  | some w =>
    rw [h] at hx
    injection hx with hx
    subst hx
    exact w.isLt

theorem Basic.load_ok {x : Basic} (ht : x.textLen < W64) (hr : Fits x.ranks x.ranksLen) (hb : x.bitsLen < W64)
    (aB aR : Nat) (f : File) :
    Basic.load aB aR ((cell8 (some x.textLen) ++ (block8 x.ranks x.ranksLen ++ block8 (toNats x.bits) x.bitsLen)) ++ f) =
      ok (x.back aB aR, f) := by
  unfold Basic.load
  simp only [List.append_assoc]
  rw [freadHead_ok ht, ok_bind]
  simp only []
  rw [loadWords_ok hr, ok_bind]
  simp only []
  rw [loadWords_ok (fits_words x.bits hb), ok_bind]
  simp only []
  rw [clip_words]
  rfl

theorem Basic.load_cut {x : Basic} (ht : x.textLen < W64) (hr : Fits x.ranks x.ranksLen) (hb : x.bitsLen < W64)
    (aB aR k : Nat) (hk : k < 24 + 8 * x.ranksLen + 8 * x.bitsLen) :
    Basic.load aB aR ((cell8 (some x.textLen) ++ (block8 x.ranks x.ranksLen ++ block8 (toNats x.bits) x.bitsLen)).take k) =
      abort := by
  unfold Basic.load
  have h1 := cell8_length (some x.textLen)
  have h2 := block8_length x.ranks x.ranksLen
  rcases take_two (cell8 (some x.textLen)) (block8 x.ranks x.ranksLen ++ block8 (toNats x.bits) x.bitsLen) k with
    ⟨h, e⟩ | ⟨h, e⟩
  · rw [e, freadHead_cut (by rw [List.length_take]; omega)]
    rfl
  · rw [e, freadHead_ok ht, ok_bind]
    simp only []
    rcases take_two (block8 x.ranks x.ranksLen) (block8 (toNats x.bits) x.bitsLen) (k - (cell8 (some x.textLen)).length) with
      ⟨h', e'⟩ | ⟨h', e'⟩
    · rw [e', loadWords_cut hr.1 _ (by omega)]
      rfl
    · rw [e', loadWords_ok hr, ok_bind]
      simp only []
      rw [loadWords_cut hb _ (by omega)]
      rfl

theorem CF.save_ok {x : CF} (h : x.bitsLen ≤ x.bits.len) (f : File) :
    x.save f = ok (f ++ (cell8 (some x.textLen) ++ (cell8 (some x.border) ++ (cell8 (some x.blockBorder) ++
      block8 (toNats x.bits) x.bitsLen)))) := by
  unfold CF.save
  simp only []
  rw [saveWords_ok (v := toNats x.bits) h]
  simp only [List.append_assoc]

def CF.back (x : CF) (aB : Nat) : CF := ⟨clip x.bits x.bitsLen (room aB), x.bitsLen, x.textLen, x.border, x.blockBorder⟩

theorem CF.load_ok {x : CF} (ht : x.textLen < W64) (h1 : x.border < W64) (h2 : x.blockBorder < W64) (hb : x.bitsLen < W64)
    (aB : Nat) (f : File) :
    CF.load aB ((cell8 (some x.textLen) ++ (cell8 (some x.border) ++ (cell8 (some x.blockBorder) ++
      block8 (toNats x.bits) x.bitsLen))) ++ f) = ok (x.back aB, f) := by
  unfold CF.load
  simp only [List.append_assoc]
  rw [freadHead_ok ht, ok_bind]
  simp only []
  rw [freadHead_ok h1, ok_bind]
  simp only []
  rw [freadHead_ok h2, ok_bind]
  simp only []
  rw [loadWords_ok (fits_words x.bits hb), ok_bind]
  simp only []
  rw [clip_words]
  rfl

theorem CF.load_cut {x : CF} (ht : x.textLen < W64) (h1 : x.border < W64) (h2 : x.blockBorder < W64) (hb : x.bitsLen < W64)
    (aB k : Nat) (hk : k < 32 + 8 * x.bitsLen) :
    CF.load aB ((cell8 (some x.textLen) ++ (cell8 (some x.border) ++ (cell8 (some x.blockBorder) ++
      block8 (toNats x.bits) x.bitsLen))).take k) = abort := by
  unfold CF.load
  have c1 := cell8_length (some x.textLen)
  have c2 := cell8_length (some x.border)
  have c3 := cell8_length (some x.blockBorder)
  rcases take_two (cell8 (some x.textLen)) (cell8 (some x.border) ++ (cell8 (some x.blockBorder) ++
      block8 (toNats x.bits) x.bitsLen)) k with ⟨h, e⟩ | ⟨h, e⟩
  · rw [e, freadHead_cut (by rw [List.length_take]; omega)]
    rfl
  rw [e, freadHead_ok ht, ok_bind]
  simp only []
  rcases take_two (cell8 (some x.border)) (cell8 (some x.blockBorder) ++
      block8 (toNats x.bits) x.bitsLen) (k - (cell8 (some x.textLen)).length) with ⟨h', e'⟩ | ⟨h', e'⟩
  · rw [e', freadHead_cut (by rw [List.length_take]; omega)]
    rfl
  rw [e', freadHead_ok h1, ok_bind]
  simp only []
  rcases take_two (cell8 (some x.blockBorder)) (block8 (toNats x.bits) x.bitsLen)
    (k - (cell8 (some x.textLen)).length - (cell8 (some x.border)).length) with ⟨h'', e''⟩ | ⟨h'', e''⟩
  · rw [e'', freadHead_cut (by rw [List.length_take]; omega)]
    rfl
  rw [e'', freadHead_ok h2, ok_bind]
  simp only []
  rw [loadWords_cut hb _ (by omega)]
  rfl

theorem Select.save_ok {x : Select} (h1 : x.selLen ≤ x.sel.len) (h2 : x.bitsLen ≤ x.bits.len) (f : File) :
    x.save f = ok (f ++ (cell8 (some x.textLen) ++ (block8 x.sel x.selLen ++ block1 x.bits x.bitsLen))) := by
  unfold Select.save block1
  simp only []
  rw [saveWords_ok h1, ok_bind]
  by_cases hn : x.bitsLen > 0
  · rw [if_pos hn, fwrite1_ok h2]
    simp only [List.append_assoc]
  · have : x.bitsLen = 0 := by omega
    rw [if_neg hn, this]
    simp only [List.append_assoc]
    show _ = ok (f ++ (_ ++ (_ ++ (_ ++ []))))
    rw [List.append_nil]

def Select.back (x : Select) (aS aB : Nat) : Select :=
  ⟨clip x.sel x.selLen (room aS), x.selLen, clip x.bits x.bitsLen (roomBytes aB), x.bitsLen, x.textLen⟩

theorem Select.load_ok {x : Select} (ht : x.textLen < W64) (hr : Fits x.sel x.selLen) (hb : x.bitsLen < W64)
    (aS aB : Nat) (f : File) :
    Select.load aS aB ((cell8 (some x.textLen) ++ (block8 x.sel x.selLen ++ block1 x.bits x.bitsLen)) ++ f) =
      ok (x.back aS aB, f) := by
  unfold Select.load block1
  simp only [List.append_assoc]
  rw [freadHead_ok ht, ok_bind]
  simp only []
  rw [loadWords_ok hr, ok_bind]
  simp only []
  rw [freadHead_ok hb, ok_bind]
  simp only []
  by_cases hn : x.bitsLen > 0
  · rw [if_pos hn, fread1_ok (v := fresh (x.bitsLen + roomBytes aB)) (show x.bitsLen ≤ x.bitsLen + roomBytes aB by omega), ok_bind]
    simp only []
    unfold Select.back
    rw [show clip x.bits x.bitsLen (roomBytes aB) = _ from if_neg (by omega)]
    rfl
  · have h0 : x.bitsLen = 0 := by omega
    rw [if_neg hn, h0]
    unfold Select.back
    rw [show clip x.bits x.bitsLen (roomBytes aB) = _ from if_pos h0]
    rw [h0]
    rfl

theorem Select.load_cut {x : Select} (ht : x.textLen < W64) (hr : Fits x.sel x.selLen) (hb : x.bitsLen < W64)
    (aS aB k : Nat) (hk : k < 24 + 8 * x.selLen + x.bitsLen) :
    Select.load aS aB ((cell8 (some x.textLen) ++ (block8 x.sel x.selLen ++ block1 x.bits x.bitsLen)).take k) =
      abort := by
  unfold Select.load
  have h1 := cell8_length (some x.textLen)
  have h2 := block8_length x.sel x.selLen
  rcases take_two (cell8 (some x.textLen)) (block8 x.sel x.selLen ++ block1 x.bits x.bitsLen) k with
    ⟨h, e⟩ | ⟨h, e⟩
  · rw [e, freadHead_cut (by rw [List.length_take]; omega)]
    rfl
  rw [e, freadHead_ok ht, ok_bind]
  simp only []
  rcases take_two (block8 x.sel x.selLen) (block1 x.bits x.bitsLen) (k - (cell8 (some x.textLen)).length) with
    ⟨h', e'⟩ | ⟨h', e'⟩
  · rw [e', loadWords_cut hr.1 _ (by omega)]
    rfl
  rw [e', loadWords_ok hr, ok_bind]
  simp only []
  unfold block1
  have c3 := cell8_length (some x.bitsLen)
  have c4 := cells1_length x.bits.f x.bitsLen 0
  rcases take_two (cell8 (some x.bitsLen)) (cells1 x.bits.f 0 x.bitsLen)
    (k - (cell8 (some x.textLen)).length - (block8 x.sel x.selLen).length) with ⟨h'', e''⟩ | ⟨h'', e''⟩
  · rw [e'', freadHead_cut (by rw [List.length_take]; omega)]
    rfl
  rw [e'', freadHead_ok hb, ok_bind]
  simp only []
  rw [if_pos (by omega)]
  unfold fread1
  rw [if_pos (by rw [List.length_take]; omega)]
  rfl

end MRS.Mran
