import Verif.Proofs.Hft.Layout
import Verif.Proofs.Hft.Build

/-! # FixedF, ByteF and TypeF: the accessors respect the layouts -/

set_option autoImplicit false

namespace MRS.Hft
open Outcome

/-! ## Heights -/

theorem dvd_iff_tz {M i : Nat} (h0 : 0 < i) (h1 : i < W64) : 2 ^ M ∣ i ↔ M ≤ tz i := by
  obtain ⟨h, k, hh, rfl, e⟩ := decomp h0 h1
  rw [e]
  constructor
  · exact dvd_tz
  · intro hle
    obtain ⟨d, rfl⟩ := Nat.exists_eq_add_of_le hle
    exact ⟨2 ^ d * (2 * k + 1), by rw [Nat.pow_add, Nat.mul_assoc]⟩

theorem div_step {M i : Nat} (h0 : 0 < i) (h1 : i < W64) :
    i / 2 ^ M = (i - 1) / 2 ^ M + if M ≤ tz i then 1 else 0 := by
  have hp := Nat.two_pow_pos M
  by_cases hM : M ≤ tz i
  · rw [if_pos hM]
    obtain ⟨q, rfl⟩ := (dvd_iff_tz h0 h1).2 hM
    rw [Nat.mul_div_cancel_left _ hp]
    have hq : 0 < q := Nat.pos_of_ne_zero (by rintro rfl; simp at h0)
    obtain ⟨r, rfl⟩ : ∃ r, q = r + 1 := ⟨q - 1, by omega⟩
    rw [div_pred_mul hp]
  · rw [if_neg hM, Nat.add_zero]
    have hnd : ¬ 2 ^ M ∣ i := fun h => hM ((dvd_iff_tz h0 h1).1 h)
    have hr : 0 < i % 2 ^ M := Nat.pos_of_ne_zero (fun h => hnd (Nat.dvd_of_mod_eq_zero h))
    have e := Nat.div_add_mod i (2 ^ M)
    have hl := Nat.mod_lt i hp
    symm
    rw [Nat.div_eq_iff hp]
    rw [Nat.mul_comm] at e
    omega

theorem tz_le_log2 {i n : Nat} (h0 : 0 < i) (h1 : i ≤ n) (hn : n < W64) : tz i ≤ Nat.log2 n := by
  obtain ⟨h, k, hh, rfl, e⟩ := decomp h0 (by omega)
  rw [e]
  exact (Nat.le_log2 (by omega)).2 (Nat.le_trans (pow_le_node h k) h1)

theorem lt_log2_succ {n : Nat} : n < 2 ^ (Nat.log2 n + 1) := by
  by_cases h : n = 0
  · subst h; simp
  · exact (Nat.log2_lt h).1 (by omega)

/-! ## FixedF -/

theorem fixedF_cells (n : Nat) : Cells n (fixedFPos n + 1) fixedFPos := by
  constructor
  · intro i h0 h1
    unfold fixedFPos
    rw [Nat.shiftRight_eq_div_pow, Nat.shiftRight_eq_div_pow]
    omega
  · intro i j _ _ _ _ h
    unfold fixedFPos at h
    rw [Nat.shiftRight_eq_div_pow, Nat.shiftRight_eq_div_pow] at h
    omega

theorem fixedF_inc {n : Nat} {t : Vec Nat} {v : Nat → Nat} {i : Nat} (x : Nat)
    (h : VRep n (fixedFPos n + 1) fixedFPos t v) (h0 : 0 < i) (h1 : i ≤ n) :
    ∃ t', fixedFInc t i x = ok t' ∧ VRep n (fixedFPos n + 1) fixedFPos t' (upd v i (add64 (v i) x)) := by
  unfold fixedFInc
  rw [h.get (fixedF_cells n) h0 h1, ok_bind]
  exact h.set (fixedF_cells n) h0 h1 _

theorem fixedF_sound (n : Nat) (w : Nat → Nat) : Sound n w (VRep n (fixedFPos n + 1) fixedFPos)
    fixedFGet fixedFInc :=
  ⟨fun h h0 h1 => h.get (fixedF_cells n) h0 h1, fun h h0 h1 _ _ => fixedF_inc _ h h0 h1⟩

theorem fixedF_build {n : Nat} {seq : Vec Nat} {P : Nat → Int} (hn : n < 2 ^ 62)
    (hseq : n ≤ seq.len) (hP : ∀ i, i < n → u64 (P (i + 1) - P i) = seq.f i) :
    ∃ t, fixedFBuild seq n = ok ⟨n, t⟩ ∧ Holds n (VRep n (fixedFPos n + 1) fixedFPos) t P := by
  unfold fixedFBuild
  obtain ⟨t, e, h⟩ := buildF_ok (n := n) (w := fun _ => 64) (R := VRep n (fixedFPos n + 1) fixedFPos)
    (seq := seq) (leaf := fun j v t => Vec.set t (fixedFPos j) v)
    (acc := fun idx right t => do
      let v ← fixedFGet t right
      fixedFInc t idx v) (P := P) (t0 := words (fixedFPos n + 1))
    (fun h h0 h1 _ _ _ => h.set (fixedF_cells n) h0 h1 _)
    (fun {t v i r} h hr h0 h1 _ => by
      have e := (fixedF_sound n (fun _ => 64)).get_ok h h0 (by omega)
      rw [e, ok_bind]
      exact fixedF_inc _ h (by omega) h1)
    hn hseq hP (fun i κ _ _ => u64_lt _) VRep.zero
  rw [e, ok_bind]
  exact ⟨t, rfl, h⟩

/-! ## ByteF -/

theorem or7 : ∀ x, x < 64 → x ||| 7 = x / 8 * 8 + 7 := by decide

/-- Bytes of node `i`. -/
def bsz (c : Cfg) (i : Nat) : Nat := (tz i + c.bs - 1) / 8 + 1

/-- What the compressed classes need: leaves of 1 to 64 bits, the root in 64 bits, and a size that
cannot make positions wrap. -/
structure FitF (c : Cfg) (n : Nat) (top : Nat) : Prop where
  pos : 1 ≤ c.bs
  fit : 0 < n → c.bs + Nat.log2 n ≤ top
  le : c.bs ≤ 64
  size : n < 2 ^ 48

/-- `pos` of `ByteF` without the reduction modulo `2^64`. -/
theorem byteFPos_raw {c : Cfg} {n i : Nat} (hc : FitF c n 64) (hi : i ≤ n) (hn : 0 < n) :
    byteFPos c (i + 1) = i * ((c.bs - 1) / 8 + 1) + i / 2 ^ (8 * ((c.bs - 1) / 8 + 1) - c.bs + 1)
      + i / 2 ^ (8 * ((c.bs - 1) / 8 + 1) - c.bs + 1 + 8) * (7 - ((c.bs - 1) / 8 + 1))
      + byteFHoles c i := by
  have h1 := hc.pos
  have h2 := hc.fit hn
  have h3 := hc.size
  have h4 := hc.le
  unfold byteFPos
  simp only [Nat.add_sub_cancel, Nat.shiftRight_eq_div_pow, or7 (c.bs - 1) (by omega)]
  have e1 : (c.bs - 1) / 8 * 8 + 7 + 1 - c.bs + 1 = 8 * ((c.bs - 1) / 8 + 1) - c.bs + 1 := by omega
  have e2 : (c.bs - 1) / 2 ^ 3 = (c.bs - 1) / 8 := rfl
  rw [e1, e2]
  have hb : byteFHoles c i ≤ i := by
    unfold byteFHoles
    repeat' split
    · omega
    · rw [Nat.shiftRight_eq_div_pow]; exact Nat.div_le_self _ _
    · rw [Nat.shiftRight_eq_div_pow]; exact Nat.div_le_self _ _
  by_cases hs : c.bs ≤ 56
  · have e3 : sub64 8 ((c.bs - 1) / 8 + 1 + 1) = 7 - ((c.bs - 1) / 8 + 1) := by
      rw [sub64_eq (by omega) (by decide)]; omega
    rw [e3]
    apply Nat.mod_eq_of_lt
    have q1 : i / 2 ^ (8 * ((c.bs - 1) / 8 + 1) - c.bs + 1) ≤ i := Nat.div_le_self _ _
    have q2 : i / 2 ^ (8 * ((c.bs - 1) / 8 + 1) - c.bs + 1 + 8) ≤ i := Nat.div_le_self _ _
    have q3 : i * ((c.bs - 1) / 8 + 1) ≤ i * 8 := Nat.mul_le_mul_left _ (by omega)
    have q4 := Nat.mul_le_mul q2 (show 7 - ((c.bs - 1) / 8 + 1) ≤ 8 by omega)
    have : 2 ^ 48 * 18 < W64 := by decide
    omega
  · have hz : ∀ d, i / 2 ^ (8 * ((c.bs - 1) / 8 + 1) - c.bs + 1 + d) = 0 := by
      intro d
      apply Nat.div_eq_of_lt
      have p1 := lt_log2_succ (n := n)
      have p2 : 2 ^ (Nat.log2 n + 1) ≤ 2 ^ (8 * ((c.bs - 1) / 8 + 1) - c.bs + 1 + d) :=
        Nat.pow_le_pow_right (by decide) (by omega)
      omega
    rw [hz 8, Nat.zero_mul, Nat.zero_mul, Nat.add_zero]
    apply Nat.mod_eq_of_lt
    have hz0 := hz 0
    rw [Nat.add_zero] at hz0
    rw [hz0]
    have q3 : i * ((c.bs - 1) / 8 + 1) ≤ i * 8 := Nat.mul_le_mul_left _ (by omega)
    have : 2 ^ 48 * 9 < W64 := by decide
    omega

theorem byteF_step {c : Cfg} {n i : Nat} (hc : FitF c n 64) (h0 : 0 < i) (h1 : i ≤ n) :
    byteFPos c i + bsz c i ≤ byteFPos c (i + 1) := by
  obtain ⟨j, rfl⟩ : ∃ j, i = j + 1 := ⟨i - 1, by omega⟩
  have hsz := hc.size
  have hW : j + 1 < W64 := by simp only [W64]; omega
  rw [byteFPos_raw hc (i := j) (by omega) (by omega), byteFPos_raw hc (i := j + 1) h1 (by omega)]
  have hb : byteFHoles c j ≤ byteFHoles c (j + 1) := by
    unfold byteFHoles
    repeat' split
    · omega
    · rw [Nat.shiftRight_eq_div_pow, Nat.shiftRight_eq_div_pow]; exact Nat.div_le_div_right (by omega)
    · rw [Nat.shiftRight_eq_div_pow, Nat.shiftRight_eq_div_pow]; exact Nat.div_le_div_right (by omega)
  have d1 := div_step (M := 8 * ((c.bs - 1) / 8 + 1) - c.bs + 1) h0 hW
  have d2 := div_step (M := 8 * ((c.bs - 1) / 8 + 1) - c.bs + 1 + 8) h0 hW
  rw [Nat.add_sub_cancel] at d1 d2
  rw [d1, d2, Nat.add_mul j 1, Nat.one_mul, Nat.add_mul (j / _)]
  have ht := tz_le_log2 h0 h1 (by simp only [W64]; omega)
  have hf := hc.fit (by omega)
  have hp := hc.pos
  unfold bsz
  by_cases hL : 8 * ((c.bs - 1) / 8 + 1) - c.bs + 1 + 8 ≤ tz (j + 1)
  · rw [if_pos hL, if_pos (by omega), Nat.one_mul]
    omega
  · rw [if_neg hL, Nat.zero_mul]
    by_cases hM : 8 * ((c.bs - 1) / 8 + 1) - c.bs + 1 ≤ tz (j + 1)
    · rw [if_pos hM]; omega
    · rw [if_neg hM]; omega

theorem byteF_slots {c : Cfg} {n : Nat} (hc : FitF c n 64) :
    Slots n (fun i => 8 * byteFPos c i) (fun i => 8 * bsz c i) :=
  Slots.of_step fun i h0 h1 => by
    have := byteF_step hc h0 h1
    show 8 * byteFPos c i + 8 * bsz c i ≤ 8 * byteFPos c (i + 1)
    omega

theorem byteF_mono {c : Cfg} {n : Nat} (hc : FitF c n 64) : ∀ d i, 0 < i → i + d ≤ n + 1 →
    byteFPos c i ≤ byteFPos c (i + d)
  | 0, i, _, _ => Nat.le_refl _
  | d + 1, i, h0, h1 => by
    have h2 := byteF_mono hc d i h0 (by omega)
    have h3 := byteF_step hc (i := i + d) (by omega) (by omega)
    have e : i + (d + 1) = i + d + 1 := by omega
    rw [e]; omega

theorem byteF_end {c : Cfg} {n i : Nat} (hc : FitF c n 64) (h0 : 0 < i) (h1 : i ≤ n) :
    byteFPos c i + 8 ≤ byteFPos c (n + 1) + 8 := by
  have := byteF_mono hc (n + 1 - i) i h0 (by omega)
  rw [show i + (n + 1 - i) = n + 1 by omega] at this
  omega

/-- The representation relation of `ByteF`. -/
abbrev byteFRep (c : Cfg) (n : Nat) : Mem → (Nat → Nat) → Prop :=
  FRep n (byteFPos c (n + 1) + 8) (fun i => 8 * byteFPos c i) (fun i => 8 * bsz c i)

theorem bsz_le {c : Cfg} {n i : Nat} (hc : FitF c n 64) (h0 : 0 < i) (h1 : i ≤ n) : bsz c i ≤ 8 := by
  have ht := tz_le_log2 h0 h1 (by have := hc.size; simp only [W64]; omega)
  have hf := hc.fit (by omega)
  unfold bsz; omega

theorem byteFSize_ok {c : Cfg} {i : Nat} (h0 : 0 < i) : byteFSize c i = ok (bsz c i) := by
  unfold byteFSize; rw [rho_ok h0, ok_bind, Nat.shiftRight_eq_div_pow]; rfl

theorem byteF_get {c : Cfg} {n : Nat} (hc : FitF c n 64) {t : Mem} {v : Nat → Nat} {i : Nat}
    (h : byteFRep c n t v) (h0 : 0 < i) (h1 : i ≤ n) : byteFGet c t i = ok (v i) := by
  unfold byteFGet
  rw [byteFSize_ok h0, ok_bind]
  exact byteread_ok (by rw [h.size]; exact byteF_end hc h0 h1) (bsz_le hc h0 h1) (h.fld i h0 h1)

theorem byteF_put {c : Cfg} {n : Nat} (hc : FitF c n 64) {t : Mem} {v : Nat → Nat} {i x : Nat}
    (h : byteFRep c n t v) (h0 : 0 < i) (h1 : i ≤ n) (hx : x < 2 ^ (8 * bsz c i)) :
    ∃ t', byteFPut c t i x = ok t' ∧ byteFRep c n t' (upd v i x) := by
  unfold byteFPut
  rw [byteFSize_ok h0, ok_bind]
  obtain ⟨m', e, h2, h3, h4, h5⟩ := bytewrite_ok (m := t) (off := byteFPos c i)
    (by rw [h.size]; exact byteF_end hc h0 h1) (bsz_le hc h0 h1) hx
  exact ⟨m', e, h.upd (byteF_slots hc) h0 h1 h2 h3 h4 h5⟩

theorem byteF_sound {c : Cfg} {n : Nat} (hc : FitF c n 64) :
    Sound n (fun i => 8 * bsz c i) (byteFRep c n) (byteFGet c) (byteFInc c) := by
  refine ⟨byteF_get hc, fun {t v i x} h h0 h1 hx hn => ?_⟩
  unfold byteFInc
  obtain ⟨m', e, h2, h3, h4, h5⟩ := bytewriteInc_ok (m := t) (off := byteFPos c i)
    (by rw [h.size]; exact byteF_end hc h0 h1) (bsz_le hc h0 h1) (h.fld i h0 h1) hx hn
  exact ⟨m', e, h.upd (byteF_slots hc) h0 h1 h2 h3 h4 h5⟩

theorem byteF_build {c : Cfg} {n : Nat} {seq : Vec Nat} {P : Nat → Int} (hc : FitF c n 64)
    (hseq : n ≤ seq.len) (hP : ∀ i, i < n → u64 (P (i + 1) - P i) = seq.f i)
    (hw : ∀ i κ, 0 < i → i ≤ n → u64 (stage P κ i) < 2 ^ (8 * bsz c i)) :
    ∃ t, byteFBuild c seq n = ok ⟨n, t⟩ ∧ Holds n (byteFRep c n) t P := by
  unfold byteFBuild
  obtain ⟨t, e, h⟩ := buildF_ok (n := n) (w := fun i => 8 * bsz c i) (R := byteFRep c n)
    (seq := seq) (leaf := fun j v t => byteFPut c t j v)
    (acc := fun idx r t => do
      let left ← byteFGet c t idx
      let right ← byteFGet c t r
      byteFPut c t idx (add64 left right)) (P := P) (t0 := bytes (byteFPos c (n + 1) + 8))
    (fun h h0 h1 _ hx _ => byteF_put hc h h0 h1 hx)
    (fun {t v i r} h hr h0 h1 hx => by
      rw [byteF_get hc h (by omega) h1, ok_bind, byteF_get hc h h0 (by omega), ok_bind]
      exact byteF_put hc h (by omega) h1 hx)
    (by have := hc.size; omega) hseq hP hw FRep.zero
  rw [e, ok_bind]
  exact ⟨t, rfl, h⟩

/-! ## TypeF -/

/-- Bytes of node `i` of `TypeF`. -/
def tsz (c : Cfg) (i : Nat) : Nat := typeBytes (c.bs + tz i)

theorem typeF_step {c : Cfg} {n i : Nat} (hc : FitF c n 64) (h0 : 0 < i) (h1 : i ≤ n) :
    typeFPos c i + tsz c i = typeFPos c (i + 1) := by
  have hsz := hc.size
  have hW : i < W64 := by simp only [W64]; omega
  have ht := tz_le_log2 h0 h1 (by simp only [W64]; omega)
  have hf := hc.fit (by omega)
  have hp := hc.pos
  have d1 := div_step (M := if c.bs ≤ 8 then 8 - c.bs + 1 else 0) h0 hW
  have d2 := div_step (M := if c.bs ≤ 16 then 16 - c.bs + 1 else 0) h0 hW
  unfold typeFPos tsz typeBytes
  simp only [Nat.add_sub_cancel, Nat.shiftRight_eq_div_pow]
  rw [d1, d2]
  generalize (i - 1) / 2 ^ (if c.bs ≤ 8 then 8 - c.bs + 1 else 0) = A
  generalize (i - 1) / 2 ^ (if c.bs ≤ 16 then 16 - c.bs + 1 else 0) = B
  repeat' split
  all_goals omega

theorem typeF_mono {c : Cfg} {n : Nat} (hc : FitF c n 64) : ∀ d i, 0 < i → i + d ≤ n + 1 →
    typeFPos c i ≤ typeFPos c (i + d)
  | 0, i, _, _ => Nat.le_refl _
  | d + 1, i, h0, h1 => by
    have h2 := typeF_mono hc d i h0 (by omega)
    have h3 := typeF_step hc (i := i + d) (by omega) (by omega)
    have e : i + (d + 1) = i + d + 1 := by omega
    rw [e]; omega

theorem typeF_slots {c : Cfg} {n : Nat} (hc : FitF c n 64) :
    Slots n (fun i => 8 * typeFPos c i) (fun i => 8 * tsz c i) :=
  Slots.of_step fun i h0 h1 => by
    have := typeF_step hc h0 h1
    show 8 * typeFPos c i + 8 * tsz c i ≤ 8 * typeFPos c (i + 1)
    omega

theorem typeF_end {c : Cfg} {n i : Nat} (hc : FitF c n 64) (h0 : 0 < i) (h1 : i ≤ n) :
    typeFPos c i + tsz c i ≤ typeFPos c (n + 1) := by
  have h2 := typeF_step hc h0 h1
  have := typeF_mono hc (n + 1 - (i + 1)) (i + 1) (by omega) (by omega)
  rw [show i + 1 + (n + 1 - (i + 1)) = n + 1 by omega] at this
  omega

/-- The representation relation of `TypeF`. -/
abbrev typeFRep (c : Cfg) (n : Nat) : Mem → (Nat → Nat) → Prop :=
  FRep n (typeFPos c (n + 1)) (fun i => 8 * typeFPos c i) (fun i => 8 * tsz c i)

/-- Every node of `TypeF` is aligned, or alignment does not matter. -/
def TypeAlign (c : Cfg) (n : Nat) : Prop :=
  c.build.strictAlign = true → ∀ i, 0 < i → i ≤ n → typeFPos c i % tsz c i = 0

theorem tsz_cases (c : Cfg) (i : Nat) : tsz c i = 1 ∨ tsz c i = 2 ∨ tsz c i = 8 := by
  unfold tsz typeBytes; repeat' split
  all_goals omega

theorem typeF_al {c : Cfg} {n : Nat} (ha : TypeAlign c n) {t : Mem} {v : Nat → Nat} {i : Nat}
    (h : typeFRep c n t v) (h0 : 0 < i) (h1 : i ≤ n) :
    c.build.strictAlign = true → (t.addr + typeFPos c i) % tsz c i = 0 := by
  intro hs
  have := ha hs i h0 h1
  rw [h.addr]
  rcases tsz_cases c i with e | e | e <;> rw [e] at this ⊢ <;> omega

theorem typeF_get {c : Cfg} {n : Nat} (hc : FitF c n 64) (ha : TypeAlign c n) {t : Mem}
    {v : Nat → Nat} {i : Nat} (h : typeFRep c n t v) (h0 : 0 < i) (h1 : i ≤ n) :
    typeFGet c t i = ok (v i) := by
  unfold typeFGet
  rw [rho_ok h0, ok_bind]
  have := load_ok (b := c.build) (m := t) (off := typeFPos c i) (w := tsz c i)
    (by rw [h.size]; exact typeF_end hc h0 h1) (typeF_al ha h h0 h1)
  exact this.trans (by rw [fld_whole (h.fld i h0 h1)])

theorem typeF_put {c : Cfg} {n : Nat} (hc : FitF c n 64) (ha : TypeAlign c n) {t : Mem}
    {v : Nat → Nat} {i x : Nat} (h : typeFRep c n t v) (h0 : 0 < i) (h1 : i ≤ n)
    (hx : x < 2 ^ (8 * tsz c i)) :
    ∃ t', typeFPut c t i x = ok t' ∧ typeFRep c n t' (upd v i x) := by
  unfold typeFPut
  rw [rho_ok h0, ok_bind]
  have := store_ok (b := c.build) (m := t) (off := typeFPos c i) (w := tsz c i) (v := x)
    (by rw [h.size]; exact typeF_end hc h0 h1) (typeF_al ha h h0 h1)
  refine ⟨_, this, ?_⟩
  have k := wr_whole (m := t) (off := typeFPos c i) (w := tsz c i) (f' := x)
  rw [pow256, Nat.mod_eq_of_lt hx] at k
  exact h.upd (typeF_slots hc) h0 h1 rfl rfl k.1 k.2

theorem typeF_inc {c : Cfg} {n : Nat} (hc : FitF c n 64) (ha : TypeAlign c n) {t : Mem}
    {v : Nat → Nat} {i x : Nat} (h : typeFRep c n t v) (h0 : 0 < i) (h1 : i ≤ n)
    (hx : add64 (v i) x < 2 ^ (8 * tsz c i)) :
    ∃ t', typeFInc c t i x = ok t' ∧ typeFRep c n t' (upd v i (add64 (v i) x)) := by
  unfold typeFInc
  rw [rho_ok h0, ok_bind]
  have e1 := load_ok (b := c.build) (m := t) (off := typeFPos c i) (w := tsz c i)
    (by rw [h.size]; exact typeF_end hc h0 h1) (typeF_al ha h h0 h1)
  rw [fld_whole (h.fld i h0 h1)] at e1
  have e2 := store_ok (b := c.build) (m := t) (off := typeFPos c i) (w := tsz c i) (v := v i + x)
    (by rw [h.size]; exact typeF_end hc h0 h1) (typeF_al ha h h0 h1)
  unfold tsz at e1 e2
  rw [e1, ok_bind]
  refine ⟨_, e2, ?_⟩
  have k := wr_whole (m := t) (off := typeFPos c i) (w := tsz c i) (f' := v i + x)
  have e3 : (v i + x) % 256 ^ tsz c i = add64 (v i) x := by
    have d : 256 ^ tsz c i ∣ W64 := by
      have : W64 = 256 ^ 8 := by decide
      rw [this]
      apply Nat.pow_dvd_pow
      rcases tsz_cases c i with e | e | e <;> omega
    unfold add64 at hx ⊢
    rw [← pow256] at hx
    rw [← Nat.mod_mod_of_dvd _ d, Nat.mod_eq_of_lt hx]
  rw [e3] at k
  exact h.upd (typeF_slots hc) h0 h1 rfl rfl k.1 k.2

theorem typeF_sound {c : Cfg} {n : Nat} (hc : FitF c n 64) (ha : TypeAlign c n) :
    Sound n (fun i => 8 * tsz c i) (typeFRep c n) (typeFGet c) (typeFInc c) :=
  ⟨typeF_get hc ha, fun h h0 h1 _ hn => typeF_inc hc ha h h0 h1 hn⟩

theorem typeF_build {c : Cfg} {n : Nat} {seq : Vec Nat} {P : Nat → Int} (hc : FitF c n 64)
    (ha : TypeAlign c n) (hseq : n ≤ seq.len)
    (hP : ∀ i, i < n → u64 (P (i + 1) - P i) = seq.f i)
    (hw : ∀ i κ, 0 < i → i ≤ n → u64 (stage P κ i) < 2 ^ (8 * tsz c i)) :
    ∃ t, typeFBuild c seq n = ok ⟨n, t⟩ ∧ Holds n (typeFRep c n) t P := by
  unfold typeFBuild
  obtain ⟨t, e, h⟩ := buildF_ok (n := n) (w := fun i => 8 * tsz c i) (R := typeFRep c n)
    (seq := seq) (leaf := fun j v t => typeFPut c t j v)
    (acc := fun idx r t => do
      let right ← typeFGet c t r
      typeFInc c t idx right) (P := P) (t0 := bytes (typeFPos c (n + 1)))
    (fun h h0 h1 _ hx _ => typeF_put hc ha h h0 h1 hx)
    (fun {t v i r} h hr h0 h1 hx => by
      rw [typeF_get hc ha h h0 (by omega), ok_bind]
      exact typeF_inc hc ha h (by omega) h1 hx)
    (by have := hc.size; omega) hseq hP hw FRep.zero
  rw [e, ok_bind]
  exact ⟨t, rfl, h⟩

end MRS.Hft
