import Verif.Proofs.Hft.ClassL

/-! # TypeL: three arrays, levels restarting at each -/

set_option autoImplicit false

namespace MRS.Hft
open Outcome

/-- First position of level `h` in its array. -/
def tlev (c : Cfg) (n : Nat) : Nat → Nat
  | 0 => 0
  | h + 1 => if c.bs + h = 8 ∨ c.bs + h = 16 then 0 else cnt n h + tlev c n h

/-- Which of the three arrays level `h` is in. -/
def cls (c : Cfg) (h : Nat) : Nat := if c.bs + h ≤ 8 then 0 else if c.bs + h ≤ 16 then 1 else 2

theorem cls_succ (c : Cfg) (h : Nat) :
    cls c (h + 1) = if c.bs + h = 8 ∨ c.bs + h = 16 then cls c h + 1 else cls c h := by
  unfold cls
  repeat' split
  all_goals omega

theorem cls_lt (c : Cfg) (h : Nat) : cls c h < 3 := by
  unfold cls; repeat' split
  all_goals omega

theorem cls_mono (c : Cfg) {a b : Nat} (h : a ≤ b) : cls c a ≤ cls c b := by
  unfold cls; repeat' split
  all_goals omega

/-- Levels of one array follow each other. -/
theorem tlev_same (c : Cfg) (n : Nat) {h : Nat} : ∀ {h' : Nat}, h < h' → cls c h = cls c h' →
    tlev c n h + cnt n h ≤ tlev c n h'
  | 0, hlt, _ => by omega
  | h' + 1, hlt, e => by
    have h1 := cls_mono c (show h ≤ h' by omega)
    have h2 := cls_mono c (show h' ≤ h' + 1 by omega)
    have h3 := cls_succ c h'
    by_cases hc : c.bs + h' = 8 ∨ c.bs + h' = 16
    · rw [if_pos hc] at h3; omega
    · rw [tlev, if_neg hc]
      by_cases hh : h = h'
      · subst hh; omega
      · have := tlev_same c n (show h < h' by omega) (by omega)
        omega

theorem cls_bytes {c : Cfg} {h h' : Nat} (h1 : c.bs + h ≤ 64) (h2 : c.bs + h' ≤ 64)
    (e : typeBytes (c.bs + h) = typeBytes (c.bs + h')) : cls c h = cls c h' := by
  unfold typeBytes at e
  unfold cls
  have := c.bs
  split at e <;> split at e <;> first | (repeat' split) | skip
  all_goals first | omega | skip
  all_goals (repeat' split at e)
  all_goals (try omega)
  all_goals (repeat' split)
  all_goals omega

/-- The `Level` array and the ends of the three arrays are right. -/
structure TLevOk (c : Cfg) (n : Nat) (level ends : Vec Nat) : Prop where
  len : level.len = levelsN n
  at_ : ∀ h, h < levelsN n → level.f h = tlev c n h
  elen : ends.len = 3
  end_ : ∀ h, h + 1 < levelsN n → tlev c n h + cnt n h ≤ ends.f (cls c h)
  last : ∀ h, h + 1 < levelsN n → c.bs + h = 8 ∨ c.bs + h = 16 →
    ends.f (cls c h) = tlev c n h + cnt n h

theorem typeLLevels_ok (c : Cfg) (n : Nat) :
    ∃ r, typeLLevels c n (levelsN n) = ok r ∧ TLevOk c n r.1 r.2.1 := by
  unfold typeLLevels
  have hb := c.one_le_bs
  have hp := levelsN_pos n
  refine (forFrom_inv (fun i (p : Vec Nat × Vec Nat × Nat) => p.1.len = levelsN n ∧
    (∀ h, h < i → p.1.f h = tlev c n h) ∧ p.2.1.len = 3 ∧ p.2.2 = cls c (i - 1) ∧
    (∀ h, h + 1 < i → tlev c n h + cnt n h ≤ p.2.1.f (cls c h)) ∧
    ∀ h, h + 1 < i → c.bs + h = 8 ∨ c.bs + h = 16 → p.2.1.f (cls c h) = tlev c n h + cnt n h)
    (levelsN n - 1) 1 _ ?_ ?_).imp
    fun r h => ⟨h.1, ?_⟩
  · refine ⟨rfl, fun h hh => ?_, rfl, ?_, fun h hh => by omega, fun h hh => by omega⟩
    · have : h = 0 := by omega
      subst this; rfl
    · simp [cls]
  · rintro i ⟨l, e, j⟩ h1 h2 ⟨hl, hf, he, hj, hend, hlast⟩
    simp only at hl hf he hj hend hlast
    obtain ⟨q, rfl⟩ : ∃ q, i = q + 1 := ⟨i - 1, by omega⟩
    simp only [Nat.add_sub_cancel] at hj ⊢
    have hjlt := cls_lt c q
    have hx : (n + 1 <<< q) / (1 <<< (q + 1)) + l.f q = cnt n q + tlev c n q := by
      rw [hf q (by omega)]; simp only [cnt, Nat.shiftLeft_eq, Nat.one_mul]
    have hcond : (c.bs ≤ 8 ∧ q = 8 - c.bs ∨ c.bs ≤ 16 ∧ q = 16 - c.bs) ↔
        (c.bs + q = 8 ∨ c.bs + q = 16) := by omega
    have hs := cls_succ c q
    have hends : ∀ h, h + 1 < q + 1 + 1 → tlev c n h + cnt n h ≤
        (if cls c h = j then cnt n q + tlev c n q else e.f (cls c h)) := by
      intro h hh
      by_cases hq : h = q
      · subst hq; rw [if_pos hj.symm]; omega
      · by_cases hc : cls c h = j
        · rw [if_pos hc]
          have := tlev_same c n (show h < q by omega) (by omega)
          omega
        · rw [if_neg hc]; exact hend h (by omega)
    have hlasts : ∀ h, h + 1 < q + 1 + 1 → c.bs + h = 8 ∨ c.bs + h = 16 →
        (if cls c h = j then cnt n q + tlev c n q else e.f (cls c h)) = tlev c n h + cnt n h := by
      intro h hh hbd
      by_cases hq : h = q
      · subst hq; rw [if_pos hj.symm]; omega
      · have a := cls_succ c h
        rw [if_pos hbd] at a
        have b := cls_mono c (show h + 1 ≤ q by omega)
        rw [if_neg (by omega)]; exact hlast h (by omega) hbd
    rw [Vec.get_ok (by omega), ok_bind, hx, Vec.set_ok _ (by omega), ok_bind]
    by_cases hr : c.bs + q = 8 ∨ c.bs + q = 16
    · rw [if_pos (hcond.2 hr), Vec.set_ok _ (by omega), ok_bind]
      rw [if_pos hr] at hs
      refine ⟨_, rfl, hl, fun h hh => ?_, he, by simp only; omega, hends, hlasts⟩
      by_cases hi : h = q + 1
      · simp [hi, tlev, hr]
      · simp only [if_neg hi]; exact hf h (by omega)
    · rw [if_neg (fun h => hr (hcond.1 h)), Vec.set_ok _ (by omega), ok_bind]
      rw [if_neg hr] at hs
      refine ⟨_, rfl, hl, fun h hh => ?_, he, by simp only; omega, hends, hlasts⟩
      by_cases hi : h = q + 1
      · simp [hi, tlev, hr]
      · simp only [if_neg hi]; exact hf h (by omega)
  · obtain ⟨a, b, d, -, e, g⟩ := h.2
    exact ⟨a, fun h hh => b h (by omega), d, fun h hh => e h (by omega), fun h hh => g h (by omega)⟩

/-- What `TypeL` needs: the root in 63 bits. -/
abbrev FitTL (c : Cfg) (n : Nat) : Prop := FitF c n 63

/-- The representation relation of `TypeL`. -/
structure typeLRep (c : Cfg) (n : Nat) (t : Three) (v : Nat → Nat) : Prop where
  lt : ∀ h k, 2 ^ h * (2 * k + 1) ≤ n → tlev c n h + k < (t.arr (typeBytes (c.bs + h))).len
  val : ∀ h k, 2 ^ h * (2 * k + 1) ≤ n →
    (t.arr (typeBytes (c.bs + h))).f (tlev c n h + k) = v (2 ^ h * (2 * k + 1))
  last : ∀ h, 2 ^ h ≤ n → c.bs + h = 8 ∨ c.bs + h = 16 →
    (t.arr (typeBytes (c.bs + h))).len = tlev c n h + cnt n h

section
variable {c : Cfg} {n : Nat} (hc : FitTL c n)
include hc

theorem typeL_root {h k : Nat} (hle : 2 ^ h * (2 * k + 1) ≤ n) : c.bs + h ≤ 63 := by
  have h0 : 0 < n := by have := node_pos h k; omega
  have h1 : 2 ^ h ≤ n := Nat.le_trans (pow_le_node h k) hle
  have := (Nat.le_log2 (by omega)).2 h1
  have := hc.fit h0
  omega

theorem typeLAlloc_ok {level ends : Vec Nat} (hl : TLevOk c n level ends) :
    ∃ t, typeLAlloc c (levelsN n) ends = ok t ∧ typeLRep c n t (fun _ => 0) := by
  unfold typeLAlloc
  have he := hl.elen
  rw [Vec.get_ok (by omega), ok_bind, Vec.get_ok (by omega), ok_bind, Vec.get_ok (by omega), ok_bind]
  have key : ∀ h k, 2 ^ h * (2 * k + 1) ≤ n → tlev c n h + k < ends.f (cls c h) ∧ c.bs + h ≤ 63 ∧
      c.bs + h + 1 ≤ levelsN n + c.bs - 1 ∧ levelsN n + c.bs - 1 ≤ 64 := by
    intro h k hle
    have h1 := (lt_cnt n h k).2 hle
    have h2 := height_lt hle
    have h3 := hl.end_ h h2
    have h4 := typeL_root hc hle
    have h5 : 0 < n := by have := node_pos h k; omega
    have h6 := hc.fit h5
    refine ⟨by omega, h4, by omega, ?_⟩
    unfold levelsN; rw [if_neg (by omega)]; omega
  have hb := hc.pos
  have key2 : ∀ h, 2 ^ h ≤ n → c.bs + h = 8 ∨ c.bs + h = 16 →
      ends.f (cls c h) = tlev c n h + cnt n h ∧ c.bs + h + 1 ≤ levelsN n + c.bs - 1 ∧
      levelsN n + c.bs - 1 ≤ 64 := by
    intro h hle hbd
    have hle' : 2 ^ h * (2 * 0 + 1) ≤ n := by simpa using hle
    obtain ⟨-, -, k1, k2⟩ := key h 0 hle'
    exact ⟨hl.last h (height_lt hle') hbd, k1, k2⟩
  simp only
  split
  · refine ⟨_, rfl, fun h k hle => ?_, fun h k hle => ?_, fun h hle hbd => ?_⟩
    · have := key h k hle
      unfold Three.arr typeBytes
      unfold cls at this
      repeat' split
      all_goals (simp only [words])
      all_goals (repeat' split at this)
      all_goals omega
    · unfold Three.arr; repeat' split
      all_goals rfl
    · have := key2 h hle hbd
      unfold Three.arr typeBytes
      unfold cls at this
      repeat' split
      all_goals (simp only [words])
      all_goals (repeat' split at this)
      all_goals omega
  · split
    · refine ⟨_, rfl, fun h k hle => ?_, fun h k hle => ?_, fun h hle hbd => ?_⟩
      · have := key h k hle
        unfold Three.arr typeBytes
        unfold cls at this
        repeat' split
        all_goals (simp only [words])
        all_goals (repeat' split at this)
        all_goals omega
      · unfold Three.arr; repeat' split
        all_goals rfl
      · have := key2 h hle hbd
        unfold Three.arr typeBytes
        unfold cls at this
        repeat' split
        all_goals (simp only [words])
        all_goals (repeat' split at this)
        all_goals omega
    · refine ⟨_, rfl, fun h k hle => ?_, fun h k hle => ?_, fun h hle hbd => ?_⟩
      · have := key h k hle
        unfold Three.arr typeBytes
        unfold cls at this
        repeat' split
        all_goals (simp only [words])
        all_goals (repeat' split at this)
        all_goals omega
      · unfold Three.arr; repeat' split
        all_goals rfl
      · have := key2 h hle hbd
        unfold Three.arr typeBytes
        unfold cls at this
        repeat' split
        all_goals (simp only [words])
        all_goals (repeat' split at this)
        all_goals omega

omit hc in
theorem typeL_lpos {level ends : Vec Nat} (hl : TLevOk c n level ends) {h k : Nat}
    (hh : h < levelsN n) : lpos (fun _ => 1) level h k = ok (tlev c n h + k) := by
  unfold lpos
  rw [Vec.get_ok (by rw [hl.len]; exact hh), ok_bind, hl.at_ h hh, Nat.mul_one]

omit hc in
theorem typeL_get {level ends : Vec Nat} (hl : TLevOk c n level ends) {t : Three} {v : Nat → Nat}
    {h k : Nat} (hr : typeLRep c n t v) (hle : 2 ^ h * (2 * k + 1) ≤ n) :
    typeLGet c level t h k = ok (v (2 ^ h * (2 * k + 1))) := by
  unfold typeLGet
  rw [typeL_lpos hl (by have := height_lt hle; omega), ok_bind]
  unfold Three.get
  rw [Vec.get_ok (hr.lt h k hle), hr.val h k hle]

theorem three_set {t : Three} {v : Nat → Nat} {h k x : Nat} (hr : typeLRep c n t v)
    (hle : 2 ^ h * (2 * k + 1) ≤ n) :
    ∃ t', t.set c h (tlev c n h + k) x = ok t' ∧
      typeLRep c n t' (upd v (2 ^ h * (2 * k + 1)) (x % 256 ^ typeBytes (c.bs + h))) := by
  unfold Three.set
  have hlt := hr.lt h k hle
  simp only
  rw [Vec.set_ok _ hlt, ok_bind]
  refine ⟨_, rfl, ?_⟩
  have hinj : ∀ h' k', 2 ^ h' * (2 * k' + 1) ≤ n → typeBytes (c.bs + h') = typeBytes (c.bs + h) →
      tlev c n h' + k' = tlev c n h + k → 2 ^ h' * (2 * k' + 1) = 2 ^ h * (2 * k + 1) := by
    intro h' k' hle' eb ep
    have r1 := typeL_root hc hle
    have r2 := typeL_root hc hle'
    have ec := cls_bytes (by omega) (by omega) eb
    have c1 := (lt_cnt n h k).2 hle
    have c2 := (lt_cnt n h' k').2 hle'
    rcases Nat.lt_trichotomy h' h with hh | hh | hh
    · have := tlev_same c n hh ec; omega
    · subst hh
      have : k' = k := by omega
      rw [this]
    · have := tlev_same c n hh ec.symm; omega
  have harr : ∀ (a : Vec Nat) (b' : Nat), b' = 8 ∨ b' = 2 ∨ b' = 1 →
      (if typeBytes (c.bs + h) = 8 then { t with t64 := a } else
        if typeBytes (c.bs + h) = 2 then { t with t16 := a } else { t with t8 := a } : Three).arr b'
      = if b' = typeBytes (c.bs + h) then a else t.arr b' := by
    intro a b' hb'
    have hb : typeBytes (c.bs + h) = 8 ∨ typeBytes (c.bs + h) = 2 ∨ typeBytes (c.bs + h) = 1 := by
      unfold typeBytes; repeat' split
      all_goals omega
    unfold Three.arr
    rcases hb with e | e | e <;> rcases hb' with e' | e' | e' <;> simp [e, e']
  have hb3 : ∀ h', typeBytes (c.bs + h') = 8 ∨ typeBytes (c.bs + h') = 2 ∨ typeBytes (c.bs + h') = 1 := by
    intro h'
    unfold typeBytes; repeat' split
    all_goals omega
  refine ⟨?_, ?_, ?_⟩
  rotate_left 2
  · intro h' hle' hbd
    rw [harr _ _ (hb3 h')]
    have := hr.last h' hle' hbd
    split
    · rename_i e; rw [e] at this; exact this
    · exact this
  · intro h' k' hle'
    rw [harr _ _ (hb3 h')]
    have := hr.lt h' k' hle'
    split
    · rename_i e; rw [e] at this; exact this
    · exact this
  · intro h' k' hle'
    rw [harr _ _ (hb3 h')]
    have hv := hr.val h' k' hle'
    simp only [upd]
    split
    · rename_i e
      rw [e] at hv
      show (if tlev c n h' + k' = tlev c n h + k then _ else _) = _
      by_cases hp : tlev c n h' + k' = tlev c n h + k
      · rw [if_pos hp, if_pos (hinj h' k' hle' e hp)]
      · rw [if_neg hp, hv, if_neg]
        intro en
        have w1 : 2 ^ h' * (2 * k' + 1) < W64 := by have := hc.size; simp only [W64]; omega
        have hd := tz_eq (k := k') (node_lt w1)
        rw [en, tz_eq (k := k) (node_lt (by rw [← en]; exact w1))] at hd
        subst hd
        have := Nat.eq_of_mul_eq_mul_left (Nat.two_pow_pos h) en
        omega
    · rename_i e
      rw [hv, if_neg]
      intro en
      have w1 : 2 ^ h' * (2 * k' + 1) < W64 := by have := hc.size; simp only [W64]; omega
      have hd := tz_eq (k := k') (node_lt w1)
      rw [en, tz_eq (k := k) (node_lt (by rw [← en]; exact w1))] at hd
      subst hd
      exact e rfl

theorem typeL_put {level ends : Vec Nat} (hl : TLevOk c n level ends) {t : Three} {v : Nat → Nat}
    {h k x : Nat} (hr : typeLRep c n t v) (hle : 2 ^ h * (2 * k + 1) ≤ n)
    (hx : x < 2 ^ (8 * typeBytes (c.bs + h))) :
    ∃ t', typeLPut c level t h k x = ok t' ∧ typeLRep c n t' (upd v (2 ^ h * (2 * k + 1)) x) := by
  unfold typeLPut
  rw [typeL_lpos hl (by have := height_lt hle; omega), ok_bind]
  obtain ⟨t', e, hr'⟩ := three_set hc (x := x) hr hle
  rw [Nat.pow_mul] at hx
  rw [Nat.mod_eq_of_lt hx] at hr'
  exact ⟨t', e, hr'⟩

theorem typeL_inc {level ends : Vec Nat} (hl : TLevOk c n level ends) {t : Three} {v : Nat → Nat}
    {h k x : Nat} (hr : typeLRep c n t v) (hle : 2 ^ h * (2 * k + 1) ≤ n)
    (hx : add64 (v (2 ^ h * (2 * k + 1))) x < 2 ^ (8 * typeBytes (c.bs + h))) :
    ∃ t', typeLInc c level x t h k = ok t' ∧
      typeLRep c n t' (upd v (2 ^ h * (2 * k + 1)) (add64 (v (2 ^ h * (2 * k + 1))) x)) := by
  unfold typeLInc
  rw [typeL_lpos hl (by have := height_lt hle; omega), ok_bind]
  unfold Three.get
  rw [Vec.get_ok (hr.lt h k hle), ok_bind, hr.val h k hle]
  obtain ⟨t', e, hr'⟩ := three_set hc (x := v (2 ^ h * (2 * k + 1)) + x) hr hle
  refine ⟨t', e, ?_⟩
  rw [Nat.pow_mul] at hx
  have hm : (v (2 ^ h * (2 * k + 1)) + x) % 256 ^ typeBytes (c.bs + h)
      = add64 (v (2 ^ h * (2 * k + 1))) x := by
    rw [← Nat.mod_eq_of_lt hx]
    unfold add64
    rw [Nat.mod_mod_of_dvd]
    unfold typeBytes; repeat' split
    all_goals decide
  rw [hm] at hr'
  exact hr'

theorem typeL_sound {level ends : Vec Nat} (hl : TLevOk c n level ends) :
    Sound n (fun i => 8 * tsz c i) (typeLRep c n)
    (fun t => byHeight (typeLGet c level t)) (fun t i x => byHeight (typeLInc c level x t) i) :=
  have hn : n < W64 := by have := hc.size; simp only [W64]; omega
  sound_byHeight hn (fun h1 h2 => typeL_get hl h1 h2)
    (fun {t v h k x} h1 h2 h3 h4 => typeL_inc hc hl h1 h2 (by
      unfold tsz at h4
      rw [tz_eq (node_lt (k := k) (by omega))] at h4; exact h4))

theorem typeL_build {seq : Vec Nat} {P : Nat → Int}
    (hseq : n ≤ seq.len) (hP : ∀ i, i < n → u64 (P (i + 1) - P i) = seq.f i)
    (hw : ∀ i, 0 < i → i ≤ n → u64 (nodeInt P i) < 2 ^ (8 * tsz c i)) :
    ∃ level t, typeLBuild c seq n = ok ⟨n, levelsN n, level, t⟩ ∧
      (∃ ends, TLevOk c n level ends) ∧ Holds n (typeLRep c n) t P := by
  have hsz := hc.size
  obtain ⟨⟨level, ends, j⟩, el, hl⟩ := typeLLevels_ok c n
  obtain ⟨t0, e0, h0⟩ := typeLAlloc_ok hc hl
  obtain ⟨t, e, h⟩ := buildL_ok (n := n) (L := levelsN n) (w := fun i => 8 * tsz c i)
    (R := typeLRep c n) (seq := seq) (get := typeLGet c level)
    (put := typeLPut c level) (P := P) (t0 := t0)
    (fun h1 h2 => typeL_get hl h1 h2)
    (fun {t v h k x} h1 h2 _ h4 _ => typeL_put hc hl h1 h2 (by
      unfold tsz at h4
      rw [tz_eq (node_lt (k := k) (by simp only [W64]; omega))] at h4; exact h4))
    (by omega) hseq (lt_levelsN n) hP hw h0
  refine ⟨level, t, ?_, ⟨ends, hl⟩, h⟩
  unfold typeLBuild
  rw [levelsOf_ok, ok_bind, el, ok_bind, e0, ok_bind, e, ok_bind]

omit hc in
/-- Every node a search for `val` can look at exists, or is missing from the end of one of the arrays:
below a node whose prefix does not exceed `val`, the next one of each height of the tree is within the
tree, or its height is the last one of its element type. -/
def Reach (c : Cfg) (n : Nat) (Q : Nat → Nat) (val : Nat) : Prop :=
  ∀ h k, 2 ^ h ≤ n → 2 ^ (h + 1) * k ≤ n → Q (2 ^ (h + 1) * k) ≤ val →
    2 ^ h * (2 * k + 1) ≤ n ∨ c.bs + h = 8 ∨ c.bs + h = 16

omit hc in
/-- In a perfect tree every probe is of an existing node. -/
theorem reach_full {n p : Nat} (hp : n + 1 = 2 ^ p) (Q : Nat → Nat) (val : Nat) : Reach c n Q val := by
  intro h k h2 hk _
  refine Or.inl ?_
  have h0 : h < p := (Nat.pow_lt_pow_iff_right (by decide)).1 (show 2 ^ h < 2 ^ p by omega)
  obtain ⟨d, rfl⟩ : ∃ d, p = h + 1 + d := ⟨p - (h + 1), by omega⟩
  rw [Nat.pow_add] at hp
  have hkd : k < 2 ^ d := by
    apply Nat.lt_of_mul_lt_mul_left (a := 2 ^ (h + 1))
    omega
  have h3 : 2 ^ (h + 1) * (k + 1) ≤ 2 ^ (h + 1) * 2 ^ d := Nat.mul_le_mul_left _ hkd
  have h4 := Nat.two_pow_pos h
  rw [node_eq]
  rw [Nat.mul_add, Nat.mul_one] at h3
  rw [Nat.pow_succ] at *
  omega

omit hc in
/-- A multiple of `d` below a multiple of `d` is at least `d` below it. -/
theorem mul_gap {d k x : Nat} (hx : d ∣ x) (h : d * k < x) : d * k + d ≤ x := by
  obtain ⟨y, rfl⟩ := hx
  have : k < y := Nat.lt_of_mul_lt_mul_left h
  have := Nat.mul_le_mul_left d (show k + 1 ≤ y from this)
  rwa [Nat.mul_add, Nat.mul_one] at this

omit hc in
/-- Nor does a search for a value below the prefix of `2^p - 2^q`, the leading ones of the size in
binary or some of them, look at a missing node. -/
theorem reach_below {n p q : Nat} {Q : Nat → Nat} {val : Nat} (hp : n < 2 ^ p)
    (hx : 2 ^ p - 2 ^ q ≤ n) (mono : ∀ a b, a ≤ b → b ≤ n → Q a ≤ Q b)
    (hv : val < Q (2 ^ p - 2 ^ q)) : Reach c n Q val := by
  intro h k h2 hk hq
  refine Or.inl ?_
  have hlt : 2 ^ (h + 1) * k < 2 ^ p - 2 ^ q := by
    apply Classical.byContradiction
    intro hge
    have := mono _ _ (Nat.not_lt.1 hge) hk
    omega
  have h0 : h < p := (Nat.pow_lt_pow_iff_right (by decide)).1 (show 2 ^ h < 2 ^ p by omega)
  have e : 2 ^ (h + 1) = 2 ^ h + 2 ^ h := by rw [Nat.pow_succ]; omega
  rw [node_eq]
  by_cases hle : q ≤ h
  · have h3 := mul_gap (Nat.pow_dvd_pow 2 (show h + 1 ≤ p from h0))
      (Nat.lt_of_le_of_lt hk hp)
    have h4 : 2 ^ q ≤ 2 ^ h := Nat.pow_le_pow_right (by decide) hle
    omega
  · have h3 := mul_gap (Nat.dvd_sub (Nat.pow_dvd_pow 2 (show h + 1 ≤ p from h0))
      (Nat.pow_dvd_pow 2 (show h + 1 ≤ q by omega))) hlt
    omega

omit hc in
/-- A missing node is at a zero of the size in binary. -/
theorem missing {n h k : Nat} (hk : 2 ^ (h + 1) * k ≤ n) (hm : ¬ 2 ^ h * (2 * k + 1) ≤ n) :
    n / 2 ^ h % 2 = 0 ∧ k = n / 2 ^ (h + 1) := by
  have hp := Nat.two_pow_pos h
  rw [node_eq] at hm
  have e : 2 ^ (h + 1) * k = 2 ^ h * (2 * k) := by rw [Nat.pow_succ, Nat.mul_assoc]
  have e1 : n / 2 ^ h = 2 * k := by
    apply Nat.div_eq_of_lt_le
    · rw [Nat.mul_comm, ← e]; exact hk
    · rw [Nat.succ_mul, Nat.mul_comm, ← e]; omega
  refine ⟨by rw [e1]; omega, ?_⟩
  rw [Nat.pow_succ, ← Nat.div_div_eq_div_mul, e1]; omega

omit hc in
/-- The zeros of the size, in binary, above bit `h` are all where the element type changes. -/
def FirstBad (c : Cfg) (n h : Nat) : Prop :=
  ∀ g, h < g → g < Nat.log2 n → n / 2 ^ g % 2 = 0 → c.bs + g = 8 ∨ c.bs + g = 16

omit hc in
/-- A search for a value below the prefix of the bits above the first bad zero does not see it. -/
theorem reach_first {n h : Nat} {Q : Nat → Nat} {val : Nat} (hb : FirstBad c n h)
    (mono : ∀ a b, a ≤ b → b ≤ n → Q a ≤ Q b)
    (hv : val < Q (2 ^ (h + 1) * (n / 2 ^ (h + 1)))) : Reach c n Q val := by
  intro g k h2 hk hq
  by_cases hm : 2 ^ g * (2 * k + 1) ≤ n
  · exact Or.inl hm
  · refine Or.inr ?_
    obtain ⟨m1, m2⟩ := missing hk hm
    have hx : 2 ^ (h + 1) * (n / 2 ^ (h + 1)) ≤ n := Nat.mul_div_le _ _
    have hlt : 2 ^ (g + 1) * k < 2 ^ (h + 1) * (n / 2 ^ (h + 1)) := by
      apply Classical.byContradiction
      intro hge
      have := mono _ _ (Nat.not_lt.1 hge) hk
      omega
    by_cases hgh : g ≤ h
    · have h3 := mul_gap (Nat.dvd_mul_right_of_dvd
        (Nat.pow_dvd_pow 2 (show g + 1 ≤ h + 1 by omega)) _) hlt
      have e : 2 ^ (g + 1) = 2 ^ g + 2 ^ g := by rw [Nat.pow_succ]; omega
      rw [node_eq] at hm
      omega
    · have hn0 : n ≠ 0 := by have := Nat.two_pow_pos g; omega
      have hle : g ≤ Nat.log2 n := (Nat.le_log2 hn0).2 h2
      refine hb g (by omega) (Nat.lt_of_le_of_ne hle fun hg => ?_) m1
      have h4 : n < 2 ^ (g + 1) := (Nat.log2_lt hn0).1 (by omega)
      have h5 : n / 2 ^ g = 1 := by
        apply Nat.div_eq_of_lt_le
        · rw [Nat.one_mul]; exact h2
        · rw [Nat.pow_succ] at h4; omega
      omega

omit hc in
/-- The search is right when every node it looks at exists. -/
theorem findT_ok {level ends : Vec Nat} (hl : TLevOk c n level ends) {t : Three} {v : Nat → Nat}
    (hrep : typeLRep c n t v) {read : Nat → Nat → Outcome Nat} {Q : Nat → Nat} {val : Nat}
    (hT : Reach c n Q val)
    (hr : ∀ h k, 2 ^ h * (2 * k + 1) ≤ n →
      read h k = ok (Q (2 ^ h * (2 * k + 1)) - Q (2 ^ (h + 1) * k)))
    (hQ0 : Q 0 = 0) (mono : ∀ a b, a ≤ b → b ≤ n → Q a ≤ Q b) :
    ∃ r, findL n (levelsN n) (probeT c level t read) val = ok (r, val - Q r) ∧
      IsFind n Q val r := by
  have hlt := lt_levelsN n
  obtain ⟨r, e, hf⟩ := findLevels_ok (n := n) (probe := probeT c level t read) (Q := Q)
    (val := val) (levelsN n - 1)
    (fun h k hh hk hq => by
      have hh2 : 2 ^ h ≤ n := by
        unfold levelsN at hh
        by_cases hz : n = 0
        · rw [if_pos hz] at hh; omega
        · rw [if_neg hz] at hh; exact (Nat.le_log2 hz).1 (by omega)
      unfold probeT
      rw [typeL_lpos hl (by omega), ok_bind]
      by_cases hnode : 2 ^ h * (2 * k + 1) ≤ n
      · rw [if_neg (Nat.not_le.2 (hrep.lt h k hnode)), hr h k hnode, ok_bind, if_pos hnode]
      · have hlast := hrep.last h hh2 ((hT h k hh2 hk hq).resolve_left hnode)
        have hcnt : cnt n h ≤ k := Nat.not_lt.1 fun hk => hnode ((lt_cnt n h k).1 hk)
        rw [if_pos (by omega), if_neg hnode]) mono (levelsN n - 1) 0 (Nat.le_refl _) (by simp) (by simp [hQ0])
    (fun h => by simp at h; omega)
  simp only [Nat.mul_zero, hQ0, Nat.sub_zero] at e
  refine ⟨r, ?_, hf⟩
  unfold findL
  rw [e, ok_bind]
  simp only [Nat.min_eq_left hf.1]

end

end MRS.Hft
