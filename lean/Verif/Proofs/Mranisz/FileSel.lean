import Verif.Proofs.Mranisz.FileIO
import Verif.Proofs.Mranisz.SelLink

/-!
# The select objects that `load` makes
-/

set_option autoImplicit false

namespace MRS.Mran
open Outcome Spec

variable {t : Vec Byte} {L TH : Nat}

/-- `bitsLen`. -/
def bsz (t : Vec Byte) (L TH : Nat) : Nat := psum (sz1 t L TH) (tot t / L) + szLast t L TH

/-! ## What is not saved -/

/-- Some byte of the last block lies beyond `bitsLen`. -/
def Lost (t : Vec Byte) (L TH : Nat) : Prop :=
  ∃ p, Odd t L p ∧ ((p = TH ∧ (TH + 7) / 8 < 8 * tot t) ∨ (p < TH ∧ p + 1 ≠ L ∧ p % 8 = 0))

theorem off_many (hL : 1 ≤ L) (hK : tot t / L ≠ 0) : off t L TH (nbk t L) ≤ bsz t L TH := by
  have hfull : off t L TH (tot t / L) ≤ psum (sz1 t L TH) (tot t / L) :=
    psum_le (fun m hm => wd_le hL hm)
  unfold bsz szLast
  by_cases hr : tot t % L > 0
  · have hn : nbk t L = tot t / L + 1 := by unfold nbk; rw [if_pos hr]
    rw [if_pos hr, hn, off_succ]
    simp only []
    rw [ceil8, if_neg hK]
    have hw : wd t L TH (tot t / L) ≤ (if bl t L (tot t / L) > TH then 8 * (tot t % L) else (bl t L (tot t / L) + 7) / 8) := by
      unfold wd sparse mono sq sb
      simp only [decide_eq_true_eq, if_neg (Nat.lt_irrefl _)]
      by_cases h1 : bl t L (tot t / L) > TH
      · rw [if_pos h1, if_pos h1]; exact Nat.le_refl _
      · rw [if_neg h1, if_neg h1]
        split
        · omega
        · exact Nat.le_refl _
    omega
  · have hn : nbk t L = tot t / L := by unfold nbk; rw [if_neg hr, Nat.add_zero]
    rw [if_neg hr, hn]
    omega

/-- One incomplete block. -/
theorem single (h1 : 1 ≤ tot t) (h0 : tot t / L = 0) :
    nbk t L = 1 ∧
    off t L TH 1 = (if bl t L 0 > TH then 8 * tot t else if bl t L 0 = L then 0 else (bl t L 0 + 7) / 8) ∧
    bsz t L TH = (if bl t L 0 - 1 > TH then 8 * tot t else (bl t L 0 - 1 + 7) / 8) := by
  have hdm := Nat.div_add_mod (tot t) L
  rw [h0, Nat.mul_zero, Nat.zero_add] at hdm
  have hr : tot t % L > 0 := by omega
  refine ⟨by unfold nbk; rw [if_pos hr, h0], ?_, ?_⟩
  · rw [off_succ]
    unfold wd sparse mono sq sb
    simp only [decide_eq_true_eq, if_neg (show ¬ 0 < tot t / L by omega), hdm]
    show 0 + _ = _
    rw [Nat.zero_add]
    by_cases h2 : bl t L 0 > TH
    · rw [if_pos h2, if_pos h2]
    · rw [if_neg h2, if_neg h2]
      by_cases h3 : bl t L 0 = L
      · rw [if_pos ⟨h2, h3⟩, if_pos h3]
      · rw [if_neg (fun h => h3 h.2), if_neg h3]
  · unfold bsz szLast
    rw [if_pos hr]
    simp only []
    rw [ceil8, if_pos h0, h0, hdm]
    show 0 + _ = _
    rw [Nat.zero_add]

theorem lost_iff (hL : 1 ≤ L) (h1 : 1 ≤ tot t) : Lost t L TH ↔ bsz t L TH < off t L TH (nbk t L) := by
  by_cases h0 : tot t / L = 0
  · obtain ⟨hn, ho, hb⟩ := single (TH := TH) h1 h0
    have hp := bl_pos (t := t) (L := L) (m := 0) hL (by omega)
    rw [hn, ho, hb]
    constructor
    · rintro ⟨p, ⟨-, h2⟩, h3⟩
      rcases h3 with ⟨h3, h4⟩ | ⟨h3, h4, h5⟩
      · rw [if_neg (by omega), if_pos (by omega), h2]
        omega
      · rw [if_neg (by omega), if_neg (by omega), if_neg (by omega)]
        omega
    · intro h
      refine ⟨bl t L 0 - 1, ⟨h0, by omega⟩, ?_⟩
      by_cases h2 : bl t L 0 - 1 > TH
      · rw [if_pos h2, if_pos (by omega)] at h
        omega
      · rw [if_neg h2] at h
        by_cases h3 : bl t L 0 > TH
        · rw [if_pos h3] at h
          left
          have : bl t L 0 - 1 = TH := by omega
          rw [this] at h
          exact ⟨this, h⟩
        · rw [if_neg h3] at h
          by_cases h4 : bl t L 0 = L
          · rw [if_pos h4] at h
            omega
          · rw [if_neg h4] at h
            right
            exact ⟨by omega, by omega, by omega⟩
  · constructor
    · rintro ⟨p, ⟨h2, -⟩, -⟩
      exact absurd h2 h0
    · intro h
      have := off_many (TH := TH) hL h0
      omega

/-! ## The values fit -/

theorem nbk_le (hL : 1 ≤ L) : nbk t L ≤ tot t := by
  rw [nbk_ceil hL, Nat.div_le_iff_le_mul_add_pred hL]
  have : 1 * tot t ≤ L * tot t := Nat.mul_le_mul_right _ hL
  omega

theorem bsz_lt (hL : 1 ≤ L) (hLT : L ≤ TH + 1) (hlen : t.len < 2 ^ 57) : bsz t L TH < 2 ^ 64 - 2 := by
  have h1 := bitsLen_le (t := t) (TH := TH) (c := 64) hL (by omega) (by omega)
  have h2 := nbk_le (t := t) hL
  have h3 := tot_le t
  unfold bsz
  omega

theorem off_lt (hL : 1 ≤ L) (hLT : L ≤ TH + 1) (hlen : t.len < 2 ^ 57) (h1 : 1 ≤ tot t) {k : Nat} (hk : k ≤ nbk t L) :
    off t L TH k < W64 := by
  have h2 := off_mono (t := t) (L := L) TH hk
  have h3 := bsz_lt (t := t) hL hLT hlen
  have h4 := tot_le t
  simp only [W64]
  by_cases ho : Odd t L TH
  · have := (room_odd h1 ho).1
    omega
  · have := room_enough hL ho
    unfold bsz at h3
    omega

theorem selStd_fits {x : Select} (hL : 1 ≤ L) (hLT : L ≤ TH + 1) (hlen : t.len < 2 ^ 57) (h1 : 1 ≤ tot t)
    (hx : BuiltSel t L TH x) : Fits x.sel x.selLen := by
  have h2 := nbk_le (t := t) hL
  have h3 := tot_le t
  rw [hx.selLen]
  refine ⟨by simp only [W64]; omega, fun i hi v hv => ?_⟩
  by_cases hi2 : i % 2 = 0
  · have := en_le (t := t) (L := L) (m := i / 2) hL (by omega)
    rw [show i = 2 * (i / 2) by omega, hx.ev _ (by omega)] at hv
    injection hv with hv
    rw [← hv]
    simp only [W64]
    omega
  · rw [show i = 2 * (i / 2) + 1 by omega, hx.od _ (by omega)] at hv
    injection hv with hv
    rw [← hv]
    split
    · exact off_lt hL hLT hlen h1 (by omega)
    · decide

theorem selBch_fits {x : Select} (hL : 1 ≤ L) (hLT : L ≤ TH + 1) (hlen : t.len < 2 ^ 57) (h1 : 1 ≤ tot t)
    (hx : BuiltBch t L TH x) : Fits x.sel x.selLen := by
  have h2 := nbk_le (t := t) hL
  have h3 := tot_le t
  rw [hx.selLen]
  refine ⟨by simp only [W64]; omega, fun i hi v hval => ?_⟩
  obtain ⟨b, hb, hf⟩ := hx.sup (i / 21) (by omega)
  have hfi := hf (i % 21) (Nat.mod_lt _ (by decide))
  rw [show 21 * (i / 21) + i % 21 = i by omega, hval] at hfi
  injection hfi with hfi
  rw [hfi]
  have hj : i % 21 < 21 := Nat.mod_lt _ (by decide)
  generalize i % 21 = j at hj
  rcases (show j < 16 ∨ j = 16 ∨ 17 ≤ j by omega) with h | h | h
  · rw [hb.sel _ h]
    unfold hv
    split
    · have := en_le (t := t) (L := L) (m := 16 * (i / 21) + j) hL (by assumption)
      simp only [W64]
      omega
    · decide
  · rw [h, hb.off]
    unfold ho
    split
    · exact off_lt hL hLT hlen h1 (by omega)
    · decide
  · rw [show j = 17 + (j - 17) by omega, hb.dif _ (by omega)]
    exact acc_lt _ _

/-! ## Reading back -/

theorem clip_f {α : Type} {v : Vec (Option α)} {n e i : Nat} (h : i < n) :
    i < (clip v n e).len ∧ (clip v n e).f i = v.f i := by
  unfold clip
  rw [if_neg (by omega)]
  exact ⟨by show i < n + e; omega, if_pos h⟩

theorem clip_none {α : Type} {v : Vec (Option α)} {n e i : Nat} (h : n ≤ i) :
    (clip v n e).f i = none := by
  unfold clip
  split
  · rfl
  · exact if_neg (by omega)

theorem clip_len {α : Type} (v : Vec (Option α)) (n e : Nat) : n ≤ (clip v n e).len := by
  unfold clip
  split
  · rename_i h
    rw [h]
    exact Nat.zero_le _
  · exact Nat.le_add_right n e

/-- Nothing is lost: the block data is complete. -/
theorem back_data {x : Select} {e : Nat} (hb : x.bitsLen = bsz t L TH) (hd : ∀ k, k < nbk t L → Data t L TH k x.bits)
    (h : off t L TH (nbk t L) ≤ bsz t L TH) :
    off t L TH (nbk t L) ≤ (clip x.bits x.bitsLen e).len ∧
      ∀ k, k < nbk t L → Data t L TH k (clip x.bits x.bitsLen e) := by
  refine ⟨by have := clip_len x.bits x.bitsLen e; omega, fun k hk => (hd k hk).frame (fun y hy => ?_)⟩
  have := off_mono (t := t) (L := L) TH (show k + 1 ≤ nbk t L from hk)
  exact (clip_f (by omega)).2

theorem load8_ub {strict : Bool} {bits : Vec (Option Byte)} {o k : Nat} (hk : k < 8) (h : bits.f (o + k) = none) :
    ∃ e, load8 strict bits o = ub e := by
  unfold load8
  split
  · exact ⟨_, rfl⟩
  · have key : ∀ n a (w : Word), a ≤ k → k < a + n → ∃ e, forFrom a n (fun k (w : Word) => do
        let b ← uget bits (o + k)
        ok (w + b.setWidth 64 <<< (8 * k))) w = ub e := by
      intro n
      induction n with
      | zero => intro a w h1 h2; omega
      | succ n ih =>
        intro a w h1 h2
        unfold forFrom
        simp only []
        by_cases hak : a = k
        · subst hak
          obtain ⟨e, he⟩ := uget_none h
          rw [he]
          exact ⟨e, rfl⟩
        · cases hu : uget bits (o + a) with
          | ok b =>
            rw [ok_bind, ok_bind]
            exact ih (a + 1) _ (by omega) (by omega)
          | ub e => exact ⟨e, rfl⟩
          | abort =>
            unfold uget Vec.get at hu
            split at hu
            · rw [ok_bind] at hu
              cases hv : bits.f (o + a) with
              | none => rw [hv] at hu; cases hu
              | some b => rw [hv] at hu; cases hu
            · cases hu
    exact key 8 0 0#64 (Nat.zero_le _) (by omega)

theorem byteLoop_ub {bits : Vec (Option Byte)} {m i q o : Nat} (hq : Target t L m i q)
    (hd : o + (q - en t L m) / 8 ≤ bits.len ∧ ∀ y, y < (q - en t L m) / 8 →
      bits.f (o + y) = some (bacc t (en t L m + 8 * y) (min 8 (sb t L m - 8 * y))))
    (hn : bits.f (o + (q - en t L m) / 8) = none) : ∀ fuel c, en t L m + 8 * c ≤ q →
    ∃ e, byteLoop bits fuel (m * L + i - T t (en t L m + 8 * c)) (en t L m + 8 * c) (o + c) = ub e := by
  intro fuel
  induction fuel with
  | zero => intro c _; exact ⟨_, rfl⟩
  | succ fuel ih =>
    intro c h1
    unfold byteLoop
    have hrk := hq.rank
    have hhi := hq.hi
    have hlo := hq.lo
    by_cases hc : c = (q - en t L m) / 8
    · rw [hc]
      obtain ⟨e, he⟩ := uget_none hn
      rw [he]
      exact ⟨e, rfl⟩
    · rw [uget_ok (by have := hd.1; omega) (hd.2 c (by omega)), ok_bind]
      simp only []
      rw [byte_table]
      have hcnt := bacc_cnt (t := t) (en t L m + 8 * c) (x := min 8 (sb t L m - 8 * c)) (by omega) (Nat.le_refl 8)
      have hx : min 8 (sb t L m - 8 * c) = 8 := by omega
      rw [hx] at hcnt ⊢
      rw [show min 8 8 = 8 from rfl] at hcnt
      have hT := T_mono t (show en t L m + 8 * c + 8 ≤ q by omega)
      rw [if_neg (by omega)]
      obtain ⟨e, he⟩ := ih (c + 1) (by omega)
      refine ⟨e, ?_⟩
      rw [← he]
      congr 1
      rw [show en t L m + 8 * (c + 1) = en t L m + 8 * c + 8 by omega]
      omega

/-- Something is lost: the last one is out of reach. -/
theorem lost_query {q : Bool → Nat → Outcome Nat} {bits : Vec (Option Byte)} {e : Nat} (hL : 1 ≤ L) (hLT : L ≤ TH)
    (h1 : 1 ≤ tot t)
    (hdata : Data t L TH 0 bits) (hl : Lost t L TH)
    (hq : Heads t L TH (clip bits (bsz t L TH) e) q) (strict : Bool) : ∃ f, q strict (tot t) = ub f := by
  have hlo := (lost_iff (TH := TH) hL h1).1 hl
  obtain ⟨p, ⟨h0, hbl⟩, hp⟩ := hl
  obtain ⟨hn, ho, hb⟩ := single (TH := TH) h1 h0
  have hdm := Nat.div_add_mod (tot t) L
  rw [h0, Nat.mul_zero, Nat.zero_add] at hdm
  have hmod : tot t % L ≠ 0 := by omega
  have hml := Nat.mod_lt (tot t) hL
  have hpart := hq.part strict (tot t) (Nat.le_refl _) hmod
  rw [h0, hdm, if_neg (by omega)] at hpart
  rw [hpart]
  have hoff : off t L TH 0 = 0 := rfl
  rw [hoff]
  rw [hn, ho] at hlo
  unfold fetch
  by_cases hsp : bl t L 0 > TH
  · rw [if_pos hsp] at hlo ⊢
    obtain ⟨f, hf⟩ := load8_ub (strict := strict) (bits := clip bits (bsz t L TH) e) (o := 0 + 8 * (tot t - 1)) (k := 7)
      (by omega) (clip_none (by omega))
    rw [hf]
    exact ⟨f, rfl⟩
  · rw [if_neg hsp]
    have hp' : p < TH ∧ p + 1 ≠ L ∧ p % 8 = 0 := hp.resolve_left (by omega)
    have htg := target (t := t) (L := L) (m := 0) (i := tot t) hL (by omega) h1 (by omega) (by omega)
    rw [Nat.zero_mul, Nat.zero_add] at htg
    have hsel : sel t (tot t) = p := by
      have := (en_last (t := t) (L := L) (m := 0) hL (by omega)).1
      have hes := en_succ (t := t) (L := L) (m := 0) hL (by omega)
      have hall := ob_all (t := t) hL
      rw [hn] at hall
      rw [show 0 + 1 = 1 from rfl, hall] at this
      rw [en_zero] at hes
      simp only [Nat.zero_add] at hes
      omega
    rw [hsel] at htg
    rw [if_neg (by omega), hbl, Nat.add_sub_cancel] at hb
    have hs : sparse t L TH 0 = false := decide_eq_false (by omega)
    have hmo : mono t L TH 0 = false := decide_eq_false (by omega)
    have hd := hdata.2 hs hmo
    have hsb : sb t L 0 = p + 1 := by
      unfold sb
      rw [if_neg (by omega), hbl]
    have hcells : 0 + p / 8 ≤ (clip bits (bsz t L TH) e).len ∧ ∀ y, y < p / 8 → (clip bits (bsz t L TH) e).f (0 + y) =
        some (bacc t (en t L 0 + 8 * y) (min 8 (sb t L 0 - 8 * y))) := by
      refine ⟨by have := clip_len bits (bsz t L TH) e; omega, fun y hy => ?_⟩
      rw [(clip_f (by omega)).2, ← hd y (by omega), hoff]
    unfold scanBlock
    have hT0 : T t (en t L 0) = 0 := T_zero t
    have hwl := wordLoop_ok (strict := strict) (o := 0) (Or.inr rfl) hcells htg ((bl t L 0 - 1) / 64) 0 rfl (by omega)
      (by omega) htg.lo
    obtain ⟨c, ec, hc⟩ := hwl
    rw [Nat.mul_zero, Nat.add_zero, Nat.add_zero, hT0, Nat.zero_mul, Nat.zero_add, Nat.sub_zero] at ec
    rw [ec, ok_bind]
    simp only []
    have hq0 : (p - en t L 0) / 8 = p / 8 := by rw [en_zero, Nat.sub_zero]
    obtain ⟨f, hf⟩ := byteLoop_ub (bits := clip bits (bsz t L TH) e) (o := 0) htg (by rw [hq0]; exact hcells)
      (by rw [hq0]; exact clip_none (by omega)) ((clip bits (bsz t L TH) e).len + 1) c hc
    rw [Nat.zero_mul, Nat.zero_add] at hf
    rw [hf]
    exact ⟨f, rfl⟩

/-! ## Round trips -/

/-- The bytes of a `SelectBasic64`. -/
def Select.file (x : Select) : File := cell8 (some x.textLen) ++ (block8 x.sel x.selLen ++ block1 x.bits x.bitsLen)

theorem Select.file_length (x : Select) : x.file.length = 24 + 8 * x.selLen + x.bitsLen := by
  unfold Select.file
  rw [List.length_append, List.length_append, cell8_length, block8_length, block1_length]
  omega

theorem answers_unique {q q' : Bool → Nat → Outcome Nat} (h : Answers t L TH q) (h' : Answers t L TH q')
    (strict : Bool) {i : Nat} (h1 : 1 ≤ i) (hi : i ≤ tot t) : q strict i = q' strict i := by
  by_cases hb : Bad t L ∧ tot t / L * L < i
  · rw [h.bad strict i hi hb.1 hb.2, h'.bad strict i hi hb.1 hb.2]
  · rw [h.good strict i h1 hi hb, h'.good strict i h1 hi hb]

theorem selStd_back {x : Select} (hL : 1 ≤ L) (hLT : L ≤ TH) (hlen : t.len < 2 ^ 57) (h1 : 1 ≤ tot t)
    (hx : BuiltSel t L TH x) (aS aB : Nat) :
    (¬ Lost t L TH → ∀ strict i, 1 ≤ i → i ≤ tot t → selectStd strict L TH (x.back aS aB) i = selectStd strict L TH x i) ∧
    (Lost t L TH → ∀ strict, ∃ f, selectStd strict L TH (x.back aS aB) (tot t) = ub f) := by
  have hheads : Heads t L TH (x.back aS aB).bits (fun strict i => selectStd strict L TH (x.back aS aB) i) := by
    refine selectStd_heads hL (by omega) ?_ (fun k hk => ?_) (fun k hk => ?_)
    · have := clip_len x.sel x.selLen (room aS)
      rw [← hx.selLen]
      exact this
    · exact (clip_f (by rw [hx.selLen]; omega)).2.trans (hx.ev k hk)
    · exact (clip_f (by rw [hx.selLen]; omega)).2.trans (hx.od k hk)
  have hbl : x.bitsLen = bsz t L TH := hx.bl
  refine ⟨fun hl strict i hi1 hi => ?_, fun hl strict => ?_⟩
  · have hle : off t L TH (nbk t L) ≤ bsz t L TH := Nat.le_of_not_lt (fun h => hl ((lost_iff hL h1).2 h))
    have hd := back_data (x := x) (e := roomBytes aB) hbl hx.data hle
    exact answers_unique (answers_of hL (by omega) hd.1 hd.2 hheads) (selectStd_ok hL (by omega) h1 hx) strict hi1 hi
  · rw [show (x.back aS aB).bits = clip x.bits (bsz t L TH) (roomBytes aB) by rw [← hbl]; rfl] at hheads
    exact lost_query hL hLT h1 (hx.data 0 (nbk_one hL h1)) hl hheads strict

theorem selBch_back {x : Select} (hL : 1 ≤ L) (hLT : L ≤ TH) (hL2 : 8 * (L - 1) ≤ 4369) (hTH : TH - 1 ≤ 8 * 4369)
    (h32 : 2 * nbk t L + 2 < 2 ^ 32) (hlen : t.len < 2 ^ 57) (h1 : 1 ≤ tot t)
    (hx : BuiltBch t L TH x) (aS aB : Nat) :
    (¬ Lost t L TH → ∀ strict i, 1 ≤ i → i ≤ tot t → selectBch strict L TH (x.back aS aB) i = selectBch strict L TH x i) ∧
    (Lost t L TH → ∀ strict, ∃ f, selectBch strict L TH (x.back aS aB) (tot t) = ub f) := by
  have hheads : Heads t L TH (x.back aS aB).bits (fun strict i => selectBch strict L TH (x.back aS aB) i) := by
    refine selectBch_heads hL hL2 hTH h32 (by omega) ?_ (fun k hk => ?_)
    · have := clip_len x.sel x.selLen (room aS)
      rw [← hx.selLen]
      exact this
    · obtain ⟨b, hb, hf⟩ := hx.sup k hk
      exact ⟨b, hb, fun j hj => (clip_f (by rw [hx.selLen]; omega)).2.trans (hf j hj)⟩
  have hbl : x.bitsLen = bsz t L TH := hx.bl
  refine ⟨fun hl strict i hi1 hi => ?_, fun hl strict => ?_⟩
  · have hle : off t L TH (nbk t L) ≤ bsz t L TH := Nat.le_of_not_lt (fun h => hl ((lost_iff hL h1).2 h))
    have hd := back_data (x := x) (e := roomBytes aB) hbl hx.data hle
    exact answers_unique (answers_of hL (by omega) hd.1 hd.2 hheads) (selectBch_ok hL hL2 hTH h32 (by omega) hx) strict hi1 hi
  · rw [show (x.back aS aB).bits = clip x.bits (bsz t L TH) (roomBytes aB) by rw [← hbl]; rfl] at hheads
    exact lost_query hL hLT h1 (hx.data 0 (nbk_one hL h1)) hl hheads strict

/-- `load` after `save`, and of a file that was cut. -/
theorem sel_load {x : Select} (ht : x.textLen < W64) (hr : Fits x.sel x.selLen) (hb : x.bitsLen < W64) (aS aB : Nat) :
    (∀ f, Select.load aS aB (x.file ++ f) = ok (x.back aS aB, f)) ∧
      ∀ k, k < x.file.length → Select.load aS aB (x.file.take k) = abort :=
  ⟨fun f => Select.load_ok ht hr hb aS aB f,
    fun k hk => Select.load_cut ht hr hb aS aB k (by rw [← Select.file_length]; exact hk)⟩

end MRS.Mran
