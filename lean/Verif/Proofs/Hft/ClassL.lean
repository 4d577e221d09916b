import Verif.Proofs.Hft.ClassBitF

/-! # FixedL, ByteL and BitL: the accessors respect the level-ordered layouts -/

set_option autoImplicit false

namespace MRS.Hft
open Outcome

/-- Accessors by height and index within the level are accessors by node. -/
theorem byHeight_ok {α : Type} {f : Nat → Nat → Outcome α} {h k : Nat}
    (hx : 2 ^ h * (2 * k + 1) < W64) : byHeight f (2 ^ h * (2 * k + 1)) = f h k := by
  unfold byHeight
  have hh := node_lt hx
  rw [rho_ok (node_pos h k), ok_bind, tz_eq hh, Nat.shiftRight_eq_div_pow, Nat.add_comm 1 h,
    node_div]

theorem Cfg.one_le_bs (c : Cfg) : 1 ≤ c.bs := by
  unfold Cfg.bs; rw [ceilLog2Plus1]; split <;> omega

/-! ## FixedL -/

theorem fixedL_cells (n : Nat) (hn : n < W64) :
    Cells n (levelAt (fun _ => 1) n (levelsN n - 1)) (posL (fun _ => 1) n) := by
  have hS := slotsL (fun _ => 1) n 1 hn
  constructor
  · intro i h0 h1
    obtain ⟨h, k, hh, rfl, -⟩ := decomp h0 (by omega)
    rw [posL_eq _ _ hh]
    have := posL_end (fun _ => 1) h1
    omega
  · intro i j hi hin hj hjn e
    apply Classical.byContradiction
    intro hne
    have := hS.disj i j hi hin hj hjn hne
    omega

/-- The representation relation of `FixedL`. -/
abbrev fixedLRep (n : Nat) : Vec Nat → (Nat → Nat) → Prop :=
  VRep n (levelAt (fun _ => 1) n (levelsN n - 1)) (posL (fun _ => 1) n)

theorem fixedL_get {n : Nat} {level : Vec Nat} (hn : n < W64)
    (hl : LevOk (fun _ => 1) n (levelsN n) level) {t : Vec Nat} {v : Nat → Nat} {h k : Nat}
    (hr : fixedLRep n t v) (hle : 2 ^ h * (2 * k + 1) ≤ n) :
    fixedLGet level t h k = ok (v (2 ^ h * (2 * k + 1))) := by
  unfold fixedLGet
  rw [lpos_ok hl (by have := height_lt hle; omega), ok_bind]
  have := hr.get (fixedL_cells n hn) (node_pos h k) hle
  rwa [posL_eq _ _ (node_lt (k := k) (by omega))] at this

theorem fixedL_put {n : Nat} {level : Vec Nat} (hn : n < W64)
    (hl : LevOk (fun _ => 1) n (levelsN n) level) {t : Vec Nat} {v : Nat → Nat} {h k : Nat}
    (hr : fixedLRep n t v) (hle : 2 ^ h * (2 * k + 1) ≤ n) (x : Nat) :
    ∃ t', fixedLPut level t h k x = ok t' ∧ fixedLRep n t' (upd v (2 ^ h * (2 * k + 1)) x) := by
  unfold fixedLPut
  rw [lpos_ok hl (by have := height_lt hle; omega), ok_bind]
  have := hr.set (fixedL_cells n hn) (node_pos h k) hle x
  rwa [posL_eq _ _ (node_lt (k := k) (by omega))] at this

theorem fixedL_inc {n : Nat} {level : Vec Nat} (hn : n < W64)
    (hl : LevOk (fun _ => 1) n (levelsN n) level) {t : Vec Nat} {v : Nat → Nat} {h k : Nat}
    (hr : fixedLRep n t v) (hle : 2 ^ h * (2 * k + 1) ≤ n) (x : Nat) :
    ∃ t', fixedLInc level x t h k = ok t' ∧
      fixedLRep n t' (upd v (2 ^ h * (2 * k + 1)) (add64 (v (2 ^ h * (2 * k + 1))) x)) := by
  unfold fixedLInc
  rw [lpos_ok hl (by have := height_lt hle; omega), ok_bind]
  have e := hr.get (fixedL_cells n hn) (node_pos h k) hle
  rw [posL_eq _ _ (node_lt (k := k) (by omega))] at e
  rw [e, ok_bind]
  have := hr.set (fixedL_cells n hn) (node_pos h k) hle (add64 (v (2 ^ h * (2 * k + 1))) x)
  rwa [posL_eq _ _ (node_lt (k := k) (by omega))] at this

/-- From accessors by height and index to `Sound`. -/
theorem sound_byHeight {T : Type} {n : Nat} {w : Nat → Nat} {R : T → (Nat → Nat) → Prop}
    {get : T → Nat → Nat → Outcome Nat} {inc : Nat → T → Nat → Nat → Outcome T} (hn : n < W64)
    (hg : ∀ {t v h k}, R t v → 2 ^ h * (2 * k + 1) ≤ n → get t h k = ok (v (2 ^ h * (2 * k + 1))))
    (hi : ∀ {t v h k x}, R t v → 2 ^ h * (2 * k + 1) ≤ n → x < W64 →
      add64 (v (2 ^ h * (2 * k + 1))) x < 2 ^ w (2 ^ h * (2 * k + 1)) →
      ∃ t', inc x t h k = ok t' ∧
        R t' (upd v (2 ^ h * (2 * k + 1)) (add64 (v (2 ^ h * (2 * k + 1))) x))) :
    Sound n w R (fun t => byHeight (get t)) (fun t i x => byHeight (inc x t) i) := by
  constructor
  · intro t v i hr h0 h1
    obtain ⟨h, k, -, rfl, -⟩ := decomp h0 (by omega)
    rw [byHeight_ok (by omega), hg hr h1]
  · intro t v i x hr h0 h1 hx hw
    obtain ⟨h, k, -, rfl, -⟩ := decomp h0 (by omega)
    rw [byHeight_ok (by omega)]
    exact hi hr h1 hx hw

theorem fixedL_sound {n : Nat} {level : Vec Nat} (hn : n < W64)
    (hl : LevOk (fun _ => 1) n (levelsN n) level) (w : Nat → Nat) :
    Sound n w (fixedLRep n) (fun t => byHeight (fixedLGet level t))
      (fun t i x => byHeight (fixedLInc level x t) i) :=
  sound_byHeight hn (fun h1 h2 => fixedL_get hn hl h1 h2) (fun h1 h2 _ _ => fixedL_inc hn hl h1 h2 _)

theorem fixedL_build {n : Nat} {seq : Vec Nat} {P : Nat → Int} (hn : n < 2 ^ 62)
    (hseq : n ≤ seq.len) (hP : ∀ i, i < n → u64 (P (i + 1) - P i) = seq.f i) :
    ∃ level t, fixedLBuild seq n = ok ⟨n, levelsN n, level, t⟩ ∧
      LevOk (fun _ => 1) n (levelsN n) level ∧ Holds n (fixedLRep n) t P := by
  have hn' : n < W64 := by simp only [W64]; omega
  obtain ⟨level, el, hl⟩ := levelStarts_ok (fun _ => 1) n (levelsN n) (levelsN_pos n)
  obtain ⟨t, e, h⟩ := buildL_ok (n := n) (L := levelsN n) (w := fun _ => 64) (R := fixedLRep n)
    (seq := seq) (get := fixedLGet level) (put := fixedLPut level) (P := P)
    (t0 := words (levelAt (fun _ => 1) n (levelsN n - 1)))
    (fun h1 h2 => fixedL_get hn' hl h1 h2) (fun h1 h2 _ _ _ => fixedL_put hn' hl h1 h2 _)
    hn hseq (lt_levelsN n) hP (fun i _ _ => u64_lt _) VRep.zero
  refine ⟨level, t, ?_, hl, h⟩
  unfold fixedLBuild
  have hp := levelsN_pos n
  rw [levelsOf_ok, ok_bind, el, ok_bind, Vec.get_ok (by rw [hl.len]; omega), ok_bind,
    hl.at_ _ (by omega), e, ok_bind]

/-! ## ByteL -/

theorem byteLSize_eq (c : Cfg) (h : Nat) : byteLSize c h = (h + c.bs - 1) / 8 + 1 := by
  unfold byteLSize; rw [Nat.shiftRight_eq_div_pow]

/-- The representation relation of `ByteL`. -/
abbrev byteLRep (c : Cfg) (n : Nat) : Mem → (Nat → Nat) → Prop :=
  FRep n (levelAt (byteLSize c) n (levelsN n - 1) + 8) (fun i => 8 * posL (byteLSize c) n i)
    (fun i => 8 * byteLSize c (tz i))

section ByteL
variable {c : Cfg} {n : Nat} {level : Vec Nat} (hc : FitF c n 64)
  (hl : LevOk (byteLSize c) n (levelsN n) level)
include hc hl

theorem byteL_facts {h k : Nat} (hle : 2 ^ h * (2 * k + 1) ≤ n) :
    h < 64 ∧ byteLSize c h ≤ 8 ∧ tz (2 ^ h * (2 * k + 1)) = h ∧
    lpos (byteLSize c) level h k = ok (levelAt (byteLSize c) n h + k * byteLSize c h) ∧
    posL (byteLSize c) n (2 ^ h * (2 * k + 1)) = levelAt (byteLSize c) n h + k * byteLSize c h ∧
    levelAt (byteLSize c) n h + k * byteLSize c h + 8 ≤ levelAt (byteLSize c) n (levelsN n - 1) + 8 := by
  have hsz := hc.size
  have hn : n < W64 := by simp only [W64]; omega
  have hh : h < 64 := node_lt (k := k) (by omega)
  have ht := tz_le_log2 (node_pos h k) hle hn
  rw [tz_eq hh] at ht
  have hf := hc.fit (by have := node_pos h k; omega)
  have he := posL_end (byteLSize c) hle
  refine ⟨hh, ?_, tz_eq hh, lpos_ok hl (by have := height_lt hle; omega), posL_eq _ _ hh, by omega⟩
  rw [byteLSize_eq]; omega

theorem byteL_get {t : Mem} {v : Nat → Nat} {h k : Nat} (hr : byteLRep c n t v)
    (hle : 2 ^ h * (2 * k + 1) ≤ n) : byteLGet c level t h k = ok (v (2 ^ h * (2 * k + 1))) := by
  obtain ⟨hh, h8, etz, el, ep, he⟩ := byteL_facts hc hl hle
  have hf := hr.fld _ (node_pos h k) hle
  simp only [ep, etz] at hf
  unfold byteLGet
  rw [el, ok_bind]
  exact byteread_ok (by rw [hr.size]; exact he) h8 hf

theorem byteL_put {t : Mem} {v : Nat → Nat} {h k x : Nat} (hr : byteLRep c n t v)
    (hle : 2 ^ h * (2 * k + 1) ≤ n) (hx : x < 2 ^ (8 * byteLSize c h)) :
    ∃ t', byteLPut c level t h k x = ok t' ∧ byteLRep c n t' (upd v (2 ^ h * (2 * k + 1)) x) := by
  obtain ⟨hh, h8, etz, el, ep, he⟩ := byteL_facts hc hl hle
  have hS := slotsL (byteLSize c) n 8 (by have := hc.size; simp only [W64]; omega)
  unfold byteLPut
  rw [el, ok_bind]
  obtain ⟨m', e, h2, h3, h4, h5⟩ := bytewrite_ok (m := t) (by rw [hr.size]; exact he) h8 hx
  refine ⟨m', e, hr.upd hS (node_pos h k) hle h2 h3 ?_ ?_⟩
  · simp only [ep, etz]; exact h4
  · simp only [ep, etz]; exact h5

theorem byteL_inc {t : Mem} {v : Nat → Nat} {h k x : Nat} (hr : byteLRep c n t v)
    (hle : 2 ^ h * (2 * k + 1) ≤ n) (hx : x < W64)
    (hw : add64 (v (2 ^ h * (2 * k + 1))) x < 2 ^ (8 * byteLSize c h)) :
    ∃ t', byteLInc c level x t h k = ok t' ∧
      byteLRep c n t' (upd v (2 ^ h * (2 * k + 1)) (add64 (v (2 ^ h * (2 * k + 1))) x)) := by
  obtain ⟨hh, h8, etz, el, ep, he⟩ := byteL_facts hc hl hle
  have hS := slotsL (byteLSize c) n 8 (by have := hc.size; simp only [W64]; omega)
  have hf := hr.fld _ (node_pos h k) hle
  simp only [ep, etz] at hf
  unfold byteLInc
  rw [el, ok_bind]
  obtain ⟨m', e, h2, h3, h4, h5⟩ := bytewriteInc_ok (m := t) (by rw [hr.size]; exact he) h8 hf hx hw
  refine ⟨m', e, hr.upd hS (node_pos h k) hle h2 h3 ?_ ?_⟩
  · simp only [ep, etz]; exact h4
  · simp only [ep, etz]; exact h5

theorem byteL_sound : Sound n (fun i => 8 * byteLSize c (tz i)) (byteLRep c n)
    (fun t => byHeight (byteLGet c level t)) (fun t i x => byHeight (byteLInc c level x t) i) :=
  have hn : n < W64 := by have := hc.size; simp only [W64]; omega
  sound_byHeight hn (fun h1 h2 => byteL_get hc hl h1 h2)
    (fun {t v h k x} h1 h2 h3 h4 => byteL_inc hc hl h1 h2 h3 (by
      rw [tz_eq (node_lt (k := k) (by omega))] at h4; exact h4))
end ByteL

theorem byteL_build {c : Cfg} {n : Nat} {seq : Vec Nat} {P : Nat → Int} (hc : FitF c n 64)
    (hseq : n ≤ seq.len) (hP : ∀ i, i < n → u64 (P (i + 1) - P i) = seq.f i)
    (hw : ∀ i, 0 < i → i ≤ n → u64 (nodeInt P i) < 2 ^ (8 * byteLSize c (tz i))) :
    ∃ level t, byteLBuild c seq n = ok ⟨n, levelsN n, level, t⟩ ∧
      LevOk (byteLSize c) n (levelsN n) level ∧ Holds n (byteLRep c n) t P := by
  have hsz := hc.size
  obtain ⟨level, el, hl⟩ := levelStarts_ok (byteLSize c) n (levelsN n) (levelsN_pos n)
  obtain ⟨t, e, h⟩ := buildL_ok (n := n) (L := levelsN n) (w := fun i => 8 * byteLSize c (tz i))
    (R := byteLRep c n) (seq := seq) (get := byteLGet c level) (put := byteLPut c level) (P := P)
    (t0 := bytes (levelAt (byteLSize c) n (levelsN n - 1) + 8))
    (fun h1 h2 => byteL_get hc hl h1 h2)
    (fun {t v h k x} h1 h2 _ h4 _ => byteL_put hc hl h1 h2 (by
      rw [tz_eq (node_lt (k := k) (by simp only [W64]; omega))] at h4; exact h4))
    (by omega) hseq (lt_levelsN n) hP hw FRep.zero
  refine ⟨level, t, ?_, hl, h⟩
  unfold byteLBuild
  have hp := levelsN_pos n
  rw [levelsOf_ok, ok_bind, el, ok_bind, Vec.get_ok (by rw [hl.len]; omega), ok_bind,
    hl.at_ _ (by omega), e, ok_bind]

/-! ## BitL, when no node spans two words and a shift by 64 is harmless -/

/-- The representation relation of `BitL`. -/
abbrev bitLRep (c : Cfg) (n : Nat) : Mem → (Nat → Nat) → Prop :=
  FRep n (levelAt (bitLSize c) n (levelsN n - 1) / 8 + 8) (posL (bitLSize c) n)
    (fun i => bitLSize c (tz i))

section BitL
variable {c : Cfg} {n : Nat} {level : Vec Nat} (hc : FitF c n 57) (hsh : c.strictShift = false)
  (hl : LevOk (bitLSize c) n (levelsN n) level)
include hc hl

theorem bitL_facts {h k : Nat} (hle : 2 ^ h * (2 * k + 1) ≤ n) :
    ∃ p, 0 < bitLSize c h ∧ p % 8 + bitLSize c h ≤ 64 ∧ tz (2 ^ h * (2 * k + 1)) = h ∧
    lpos (bitLSize c) level h k = ok p ∧ posL (bitLSize c) n (2 ^ h * (2 * k + 1)) = p ∧
    p / 8 + 8 ≤ levelAt (bitLSize c) n (levelsN n - 1) / 8 + 8 := by
  have hsz := hc.size
  have hn : n < W64 := by simp only [W64]; omega
  have hh : h < 64 := node_lt (k := k) (by omega)
  have ht := tz_le_log2 (node_pos h k) hle hn
  rw [tz_eq hh] at ht
  have hf := hc.fit (by have := node_pos h k; omega)
  have hp := hc.pos
  have he := posL_end (bitLSize c) hle
  refine ⟨_, ?_, ?_, tz_eq hh, lpos_ok hl (by have := height_lt hle; omega), posL_eq _ _ hh, ?_⟩
  · unfold bitLSize; omega
  · have : bitLSize c h ≤ 57 := by unfold bitLSize; omega
    omega
  · have : levelAt (bitLSize c) n h + k * bitLSize c h ≤ levelAt (bitLSize c) n (levelsN n - 1) := by
      omega
    have := Nat.div_le_div_right (c := 8) this
    omega

theorem bitL_get {t : Mem} {v : Nat → Nat} {h k : Nat} (hr : bitLRep c n t v)
    (hle : 2 ^ h * (2 * k + 1) ≤ n) : bitLGet c level t h k = ok (v (2 ^ h * (2 * k + 1))) := by
  obtain ⟨p, h1, h8, etz, el, ep, he⟩ := bitL_facts hc hl hle
  have hf := hr.fld _ (node_pos h k) hle
  simp only [ep, etz] at hf
  unfold bitLGet
  rw [el, ok_bind]
  exact bitread_ok (by rw [hr.size]; exact he) h1 h8
    (by rw [show 8 * (p / 8) + p % 8 = p by omega]; exact hf)

include hsh

theorem bitL_inc {t : Mem} {v : Nat → Nat} {h k x : Nat} (hr : bitLRep c n t v)
    (hle : 2 ^ h * (2 * k + 1) ≤ n)
    (hw : add64 (v (2 ^ h * (2 * k + 1))) x < 2 ^ bitLSize c h) :
    ∃ t', bitLInc c level x t h k = ok t' ∧
      bitLRep c n t' (upd v (2 ^ h * (2 * k + 1)) (add64 (v (2 ^ h * (2 * k + 1))) x)) := by
  obtain ⟨p, h1, h8, etz, el, ep, he⟩ := bitL_facts hc hl hle
  have hS := slotsL (bitLSize c) n 1 (by have := hc.size; simp only [W64]; omega)
  simp only [Nat.one_mul] at hS
  have hf := hr.fld _ (node_pos h k) hle
  simp only [ep, etz] at hf
  unfold bitLInc
  rw [el, ok_bind]
  have e8 : 8 * (p / 8) + p % 8 = p := by omega
  obtain ⟨m', e, h2, h3, h4, h5⟩ := bitwriteInc_ok (c := c) (m := t) (off := p / 8) (frm := p % 8)
    (by rw [hr.size]; exact he) (Or.inl hsh) h1 h8 (by rw [e8]; exact hf) hw
  rw [e8] at h4 h5
  refine ⟨m', e, hr.upd hS (node_pos h k) hle h2 h3 ?_ ?_⟩
  · simp only [ep, etz]; exact h4
  · simp only [ep, etz]; exact h5

theorem bitL_sound : Sound n (fun i => bitLSize c (tz i)) (bitLRep c n)
    (fun t => byHeight (bitLGet c level t)) (fun t i x => byHeight (bitLInc c level x t) i) :=
  have hn : n < W64 := by have := hc.size; simp only [W64]; omega
  sound_byHeight hn (fun h1 h2 => bitL_get hc hl h1 h2)
    (fun {t v h k x} h1 h2 h3 h4 => bitL_inc hc hsh hl h1 h2 (by
      rw [tz_eq (node_lt (k := k) (by omega))] at h4; exact h4))
end BitL

theorem bitL_build {c : Cfg} {n : Nat} {seq : Vec Nat} {P : Nat → Int} (hc : FitF c n 57)
    (hsh : c.strictShift = false)
    (hseq : n ≤ seq.len) (hP : ∀ i, i < n → u64 (P (i + 1) - P i) = seq.f i)
    (hw : ∀ i, 0 < i → i ≤ n → u64 (nodeInt P i) < 2 ^ bitLSize c (tz i)) :
    ∃ level t, bitLBuild c seq n = ok ⟨n, levelsN n, level, t⟩ ∧
      LevOk (bitLSize c) n (levelsN n) level ∧ Holds n (bitLRep c n) t P := by
  have hsz := hc.size
  obtain ⟨level, el, hl⟩ := levelStarts_ok (bitLSize c) n (levelsN n) (levelsN_pos n)
  obtain ⟨t, e, h⟩ := buildL_ok (n := n) (L := levelsN n) (w := fun i => bitLSize c (tz i))
    (R := bitLRep c n) (seq := seq) (get := bitLGet c level)
    (put := fun t h k v => bitLInc c level v t h k) (P := P)
    (t0 := bytes (levelAt (bitLSize c) n (levelsN n - 1) / 8 + 8))
    (fun h1 h2 => bitL_get hc hl h1 h2)
    (fun {t v h k x} h1 h2 h3 h4 hW => by
      have e0 : add64 (v (2 ^ h * (2 * k + 1))) x = x := by
        rw [h3]; unfold add64; rw [Nat.zero_add, Nat.mod_eq_of_lt hW]
      have := bitL_inc hc hsh hl (x := x) h1 h2 (by
        rw [e0]
        rw [tz_eq (node_lt (k := k) (by simp only [W64]; omega))] at h4; exact h4)
      rw [e0] at this
      exact this)
    (by omega) hseq (lt_levelsN n) hP hw FRep.zero
  refine ⟨level, t, ?_, hl, h⟩
  unfold bitLBuild
  have hp := levelsN_pos n
  have e3 : levelAt (bitLSize c) n (levelsN n - 1) >>> 3
      = levelAt (bitLSize c) n (levelsN n - 1) / 8 := Nat.shiftRight_eq_div_pow _ 3
  rw [levelsOf_ok, ok_bind, el, ok_bind, Vec.get_ok (by rw [hl.len]; omega), ok_bind,
    hl.at_ _ (by omega), e3, e, ok_bind]

end MRS.Hft
