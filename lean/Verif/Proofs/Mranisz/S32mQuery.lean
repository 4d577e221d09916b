import Verif.Proofs.Mranisz.S32mPlace
import Verif.Proofs.Mranisz.SelMpeQuery

/-! # Compressed select with pairs left out, 32 bits: reading a block -/

set_option autoImplicit false

namespace MRS.Mran.S32
open Outcome Spec Poppy

variable {ty : MpeType} {t : Vec Byte} {L TH : Nat}

/-- With a full block the first loop counts no less than the second writes. -/
theorem room_full (hL : 1 ≤ L) (h1 : 1 ≤ tot t / L) :
    off t L TH (nbk t L) ≤ psum (sz1 t L TH) (tot t / L) + szLast t L TH := by
  have hfull : off t L TH (tot t / L) ≤ psum (sz1 t L TH) (tot t / L) :=
    psum_le (fun m hm => wd_le hL hm)
  unfold szLast
  by_cases hr : tot t % L > 0
  · have hn : nbk t L = tot t / L + 1 := by unfold nbk; rw [if_pos hr]
    rw [if_pos hr, hn, off_succ]
    simp only []
    rw [ceil8, if_neg (show ¬ tot t / L = 0 by omega)]
    have hw : wd t L TH (tot t / L) ≤ (if bl t L (tot t / L) > TH then 4 * (tot t % L) else (bl t L (tot t / L) + 7) / 8) := by
      unfold wd sparse mono sq sb
      simp only [decide_eq_true_eq, if_neg (Nat.lt_irrefl _)]
      by_cases h1 : bl t L (tot t / L) > TH
      · rw [if_pos h1, if_pos h1]; exact Nat.le_refl _
      · rw [if_neg h1, if_neg h1]
        split
        · omega
        · exact Nat.le_refl _
    omega
  · have hn : nbk t L = tot t / L := by unfold nbk; rw [if_neg hr, Nat.add_zero]
    rw [if_neg hr, hn]
    omega

/-- A block with pairs left out. -/
theorem takeBlock_ok {bits : Vec (Option Byte)} {m i q : Nat} (hL : 1 ≤ L) (hlen : t.len < 2 ^ 29)
    (hk : ks ty t L TH m ≠ 0) (hd : DataS ty t L TH m bits) (hb : offS ty t L TH (m + 1) ≤ bits.len)
    (hq : Target t L m i q) :
    takeBlock bits (ks ty t L TH m) (offS ty t L TH m) (bl t L m) i (en t L m) =
      answer t L m q bits (offS ty t L TH (m + 1)) := by
  have hm := (ks_dense hk).1
  have hfull := full_of_lt hm
  have hbp := bl_pos (t := t) hL (show m < nbk t L by omega)
  have hbl : bl t L m = sb t L m + 1 := by unfold sb; rw [if_pos hfull]; omega
  have hTm := T_en (t := t) (L := L) (m := m) hL (by omega)
  rw [ob_lt hL (by omega)] at hTm
  rw [offS_succ, wdS_comp hk] at hb
  rw [offS_succ, wdS_comp hk]
  unfold takeBlock
  simp only []
  rw [tableLen_eq hL hlen (by omega)]
  rw [takeLoop_ok hk (ks_lt m) hbl (hd.co hk) hb hq _ 0 _ (by omega) ⟨⟨rfl, by omega, by intro y hy; omega⟩, rfl, ?_, rfl,
    ?_, ?_, Nat.zero_le _, ?_⟩]
  · have hlt := hq.lt
    unfold answer
    split
    · rw [bind_assoc']
      congr 1
      funext _
      rw [ok_bind, Nat.mod_eq_of_lt (by simp only [W32]; omega)]
    · rw [ok_bind, Nat.mod_eq_of_lt (by simp only [W32]; omega)]
  · show i = _
    rw [show en t L m + 64 * (0 / 4) = en t L m by omega, hTm]
    omega
  · show offS ty t L TH m + _ = _
    unfold hdS
    rw [if_neg hk]
    rfl
  · show bl t L m = _; omega
  · have := hq.lo; omega

/-- The load that reads block `m` is misaligned. -/
def MisS (ty : MpeType) (t : Vec Byte) (L TH m : Nat) : Prop :=
  (bl t L m > TH ∧ offS ty t L TH m % 4 ≠ 0) ∨ (¬ bl t L m > TH ∧ bl t L m > 64 ∧ offS ty t L TH m % 8 ≠ 0)

instance (ty : MpeType) (t : Vec Byte) (L TH m : Nat) : Decidable (MisS ty t L TH m) := by unfold MisS; infer_instance

/-- What `getSelect_v1`, `getSelect_v2` answer to the one `i` of block `i / L`. -/
def outS (ty : MpeType) (t : Vec Byte) (L TH : Nat) (bits : Vec (Option Byte)) (strict : Bool) (i : Nat) : Outcome Nat :=
  if i % L = 0 ∨ bl t L (i / L) = L then ok (sel t i)
  else if ks ty t L TH (i / L) ≠ 0 then answer t L (i / L) (sel t i) bits (offS ty t L TH (i / L + 1))
  else if strict = true ∧ MisS ty t L TH (i / L) then ub .misaligned
  else ok (sel t i)

theorem fetchS_ok {bits : Vec (Option Byte)} {strict : Bool} {i : Nat} (hL : 1 ≤ L) (hlen : t.len < 2 ^ 29)
    (hi : i % L ≠ 0) (hit : i ≤ tot t) (hne : bl t L (i / L) ≠ L) (hk : ks ty t L TH (i / L) = 0)
    (hbits : offS ty t L TH (nbk t L) ≤ bits.len) (hbig : bits.len < 2 ^ 32) (hdata : DataS ty t L TH (i / L) bits) :
    fetch strict TH bits (offS ty t L TH (i / L)) (bl t L (i / L)) (i % L) (en t L (i / L)) =
      if strict = true ∧ MisS ty t L TH (i / L) then ub .misaligned
      else ok (sel t i) := by
  have hb := (block_of hL hi hit).1
  have hdm := Nat.div_add_mod i L
  have hml := Nat.mod_lt i hL
  rw [Nat.mul_comm] at hdm
  generalize i / L = m at *
  generalize hr : i % L = r at *
  have htg := target (t := t) (m := m) (i := r) hL hb (by omega) hml (by omega)
  rw [hdm] at htg
  have hoff := offS_mono (ty := ty) (t := t) (L := L) (TH := TH) (show m + 1 ≤ nbk t L from hb)
  rw [offS_succ] at hoff
  have hslt : sel t i < 8 * t.len := htg.lt
  unfold fetch
  by_cases hsp : bl t L m > TH
  · rw [if_pos hsp]
    have hs : sparse t L TH m = true := decide_eq_true hsp
    have hw := wdS_sparse (ty := ty) hs
    have hsq : r ≤ sq t L m := by
      have ho := ob_sq hL hb
      by_cases hm : m < tot t / L
      · unfold sq; rw [if_pos hm]; omega
      · have h1 := ho.2 hm
        rw [h1.2.1, ob_all hL] at h1
        omega
    rw [Nat.mod_eq_of_lt (show 4 * (r - 1) < W32 by simp only [W32]; omega)]
    by_cases hmis : strict = true ∧ offS ty t L TH m % 4 ≠ 0
    · rw [if_pos ⟨hmis.1, Or.inl ⟨hsp, hmis.2⟩⟩, load4_mis]
      · rfl
      · intro h
        rcases h with h | h
        · rw [hmis.1] at h; cases h
        · omega
    · rw [if_neg (fun h => hmis ⟨h.1, by rcases h.2 with h | h; exact h.2; exact absurd hsp h.1⟩),
        load4_ok (b := fun k => BitVec.ofNat 8 (sel t i >>> (8 * k)))]
      · rw [ok_bind, leWord_pos4 (by omega)]
      · cases strict
        · exact Or.inl rfl
        · right
          have : ¬ offS ty t L TH m % 4 ≠ 0 := fun h => hmis ⟨rfl, h⟩
          omega
      · omega
      · intro k hk
        have := hdata.sp hs (r - 1) (by omega) k hk
        rw [this, show m * L + 1 + (r - 1) = i by omega]
  · rw [if_neg hsp]
    have hs : sparse t L TH m = false := decide_eq_false hsp
    have hmo : mono t L TH m = false := decide_eq_false (fun h => hne h.2)
    have hw : wdS ty t L TH m = (sb t L m + 7) / 8 := by
      unfold wdS wd; rw [if_pos hk, hs, hmo, if_neg (by simp), if_neg (by simp)]
    unfold scanBlock32
    by_cases hmis : strict = true ∧ offS ty t L TH m % 8 ≠ 0 ∧ bl t L m > 64
    · rw [if_pos ⟨hmis.1, Or.inr ⟨hsp, hmis.2.2, hmis.2.1⟩⟩, hmis.1, scanBlock_mis hmis.2.1 hmis.2.2]
      rfl
    · rw [if_neg (fun h => hmis ⟨h.1, by rcases h.2 with h | h; exact absurd h.1 hsp; exact ⟨h.2.2, h.2.1⟩⟩)]
      rw [scanBlock_ok hL hb ?_ ⟨by omega, hdata.de ⟨hs, hmo⟩ hk⟩ htg, ok_bind, Nat.mod_eq_of_lt (by simp only [W32]; omega)]
      cases strict
      · exact Or.inl rfl
      · right
        by_cases ho : offS ty t L TH m % 8 = 0
        · exact Or.inl ho
        · right
          by_cases h64 : bl t L m ≤ 64
          · exact h64
          · exact absurd ⟨rfl, ho, by omega⟩ hmis

/-- The superblocks of `selects`. -/
structure SupS (ty : MpeType) (t : Vec Byte) (L TH : Nat) (f : Nat → Byte) (v : Vec (Option Nat)) : Prop where
  len : 25 * (nbk t L / 16 + 1) ≤ v.len
  sup : ∀ k, k < nbk t L / 16 + 1 → ∃ b, BucketS ty t L TH f (16 * k) b ∧ ∀ j, j < 25 → v.f (25 * k + j) = some (b.f j)

theorem BuiltMpeS.supS {x : Select} {f : Nat → Byte} {gb : Option (Nat → Byte)} (hx : BuiltMpeS ty t L TH f gb x) :
    SupS ty t L TH f x.sel := ⟨by have := hx.slen; rw [hx.selLen] at this; exact this, hx.sup⟩

/-- What a query does before it reads the block. -/
theorem selectMpe_head {x : Select} {f : Nat → Byte} (hL : 1 ≤ L) (hlen : t.len < 2 ^ 29)
    (hE : 2 * nbk t L + 2 + 32 ≤ 2 ^ 32) (hx : SupS ty t L TH f x.sel) (strict : Bool) (i : Nat) (hit : i ≤ tot t) :
    selectMpe ty strict L TH x i =
      if i % L = 0 then ok (sub32 (en t L (i / L)) 1)
      else if bl t L (i / L) = L then ok (add32 (sub32 (en t L (i / L)) 1) (i % L))
      else if bl t L (i / L) > TH then (do
        let off ← offSparse ty x.sel (25 * (i / L / 16)) (i / L % 16)
        let w ← load4 strict x.bits (off + 4 * (i % L - 1) % W32)
        ok w.toNat)
      else (do
        let (off, kind) ← offDense ty x.sel (25 * (i / L / 16)) (i / L % 16)
        if kind ≠ 0 then takeBlock x.bits kind off (bl t L (i / L)) (i % L) (en t L (i / L))
        else scanBlock32 strict x.bits off (bl t L (i / L)) (i % L) (en t L (i / L))) := by
  have hn := nbk_ge t L
  have hsl := hx.len
  have hsel : ∀ m, m ≤ nbk t L → 25 * (m / 16) + m % 16 < x.sel.len ∧
      x.sel.f (25 * (m / 16) + m % 16) = some (en t L m) := by
    intro m hm
    obtain ⟨b, hb, hf⟩ := hx.sup (m / 16) (by omega)
    refine ⟨by omega, ?_⟩
    rw [hf _ (by omega), hb.sel _ (by omega), show 16 * (m / 16) + m % 16 = m by omega]
    unfold hv
    rw [if_pos hm]
  have hle : i / L ≤ tot t / L := Nat.div_le_div_right hit
  have hs := hsel (i / L) (by omega)
  unfold selectMpe
  simp only []
  rw [Nat.mod_eq_of_lt (show 25 * (i / L / 16) < W32 by simp only [W32]; omega), uget_ok hs.1 hs.2, ok_bind]
  by_cases hi : i % L = 0
  · rw [if_pos hi, if_pos hi]
  · rw [if_neg hi, if_neg hi]
    have hb := (block_of hL hi hit).1
    generalize hm : i / L = m at *
    have hle := en_le (t := t) (L := L) (m := m + 1) hL hb
    have hlt := en_lt hL hb
    have hs2 : (if m % 16 = 15 then uget x.sel (25 * (m / 16) + 25) else uget x.sel (25 * (m / 16) + (m % 16 + 1))) =
        ok (en t L (m + 1)) := by
      have h' := hsel (m + 1) hb
      by_cases h15 : m % 16 = 15
      · rw [if_pos h15]
        rw [show 25 * ((m + 1) / 16) + (m + 1) % 16 = 25 * (m / 16) + 25 by omega] at h'
        exact uget_ok h'.1 h'.2
      · rw [if_neg h15]
        rw [show 25 * ((m + 1) / 16) + (m + 1) % 16 = 25 * (m / 16) + (m % 16 + 1) by omega] at h'
        exact uget_ok h'.1 h'.2
    rw [hs2, ok_bind, sub32_eq (by omega) (by simp only [W32]; omega)]
    rfl

/-- The answers to `1 ≤ i ≤ tot`. -/
theorem selectMpe_ok {x : Select} {f : Nat → Byte} {gb : Option (Nat → Byte)} (hL : 1 ≤ L) (hlen : t.len < 2 ^ 29)
    (hE : 2 * nbk t L + 2 + 32 ≤ 2 ^ 32) (hx : BuiltMpeS ty t L TH f gb x) (hf : FitsS ty t L TH) (strict : Bool) {i : Nat} (h1 : 1 ≤ i) (hit : i ≤ tot t) :
    (¬ (Bad t L ∧ tot t / L * L < i) → (i % L ≠ 0 → FlagRight ty t L TH f (i / L)) →
      selectMpe ty strict L TH x i = outS ty t L TH x.bits strict i) ∧
    (Bad t L → tot t / L * L < i →
      selectMpe ty strict L TH x i = ok (en t L (tot t / L) + (i - tot t / L * L) - 1)) := by
  have hbig : offS ty t L TH (nbk t L) < 2 ^ 32 := Nat.lt_of_le_of_lt hx.bits hx.big
  have htl := tot_le t
  have hhead := selectMpe_head hL hlen hE hx.supS strict i hit
  have hmono : i % L ≠ 0 → bl t L (i / L) = L → add32 (sub32 (en t L (i / L)) 1) (i % L) = en t L (i / L) + i % L - 1 := by
    intro hi hbl
    have hb := (block_of hL hi hit).1
    have h1 := en_le (t := t) (L := L) (m := i / L + 1) hL hb
    have h2 := en_succ (t := t) (L := L) hL hb
    have := Nat.mod_lt i hL
    exact minus_plus (by omega) (by omega)
  refine ⟨fun hbad hfl => ?_, fun hbad hlast => ?_⟩
  · rw [hhead]
    unfold outS
    by_cases hi : i % L = 0
    · rw [if_pos hi, if_pos (Or.inl hi)]
      have hdm := Nat.div_add_mod i L
      rw [Nat.mul_comm, hi, Nat.add_zero] at hdm
      have hp : i / L ≠ 0 := by intro h; rw [h] at hdm; omega
      have hle := sel_spec h1 hit
      have he : en t L (i / L) = sel t i + 1 := by
        unfold en ob
        rw [if_neg hp, hdm, show min i (tot t) = i by omega]
      rw [he, sub32_one (by omega) (by omega), Nat.add_sub_cancel]
    · rw [if_neg hi]
      have hb := block_of hL hi hit
      have hdm := Nat.div_add_mod i L
      have hml := Nat.mod_lt i hL
      rw [Nat.mul_comm] at hdm
      by_cases hm : bl t L (i / L) = L
      · rw [if_pos hm, if_pos (Or.inr hm), hmono hi hm]
        have hK : i / L < tot t / L := by
          apply hb.2.2
          refine Nat.le_of_not_lt (fun hlt => ?_)
          have he := hb.2.1 hlt
          have h3 := Nat.div_add_mod (tot t) L
          rw [Nat.mul_comm] at h3
          rw [he] at hm
          exact hbad ⟨⟨by omega, hm⟩, hlt⟩
        rw [← all_ones hL hK hm (by omega) hml, hdm]
      · rw [if_neg hm, if_neg (show ¬ (i % L = 0 ∨ bl t L (i / L) = L) from fun h => h.elim hi hm)]
        have hsl := hx.slen
        rw [hx.selLen] at hsl
        have hflag : kq ty (fvS ty t L TH f (i / L)) = ks ty t L TH (i / L) := hfl hi
        obtain ⟨b, hbk, hr⟩ := hx.sup (i / L / 16) (by omega)
        obtain ⟨p1, p2⟩ := placeS hbk hr (by omega) hbig hf hb.1
        have hmk := mkM_kq ty (fvS ty t L TH f (i / L))
        have hfet := fun hk => fetchS_ok (ty := ty) (TH := TH) (strict := strict) hL hlen hi hit hm hk hx.bits
          hx.big (hx.data _ hb.1)
        unfold fetch at hfet
        rw [p1, p2, ok_bind, ok_bind]
        simp only []
        rw [hflag] at hmk ⊢
        by_cases hk : ks ty t L TH (i / L) = 0
        · rw [if_neg (show ¬ ks ty t L TH (i / L) ≠ 0 from fun h => h hk), if_neg (show ¬ ks ty t L TH (i / L) ≠ 0 from fun h => h hk), ← hfet hk]
          rw [hk] at hmk
          have h0 : mkM ty (fvS ty t L TH f (i / L)) % 4 = 0 := by rw [hmk]; split <;> rfl
          have hoff := offS_mono (ty := ty) (t := t) (L := L) (TH := TH) (show i / L ≤ nbk t L by omega)
          rw [h0, Nat.mul_zero, ite_self, add32_eq (show offS ty t L TH (i / L) + 0 < W32 by simp only [W32]; omega), Nat.add_zero]
        · have hd := ks_dense hk
          have hsp : ¬ bl t L (i / L) > TH := by
            have := hd.2.1
            unfold sparse at this
            exact of_decide_eq_false this
          have htg := target (t := t) (m := i / L) (i := i % L) hL hb.1 (by omega) hml (by omega)
          rw [hdm] at htg
          have hoff := offS_mono (ty := ty) (t := t) (L := L) (TH := TH) (show i / L + 1 ≤ nbk t L by omega)
          have hbits := hx.bits
          rw [if_neg hsp, if_pos hk, if_pos hk, takeBlock_ok hL hlen hk (hx.data _ hb.1) (by omega) htg]
  · have h3 := Nat.div_add_mod (tot t) L
    have h4 := Nat.mod_lt (tot t) hL
    rw [Nat.mul_comm] at h3
    have hmod : i % L = i - tot t / L * L := by
      have h5 : i = (i - tot t / L * L) + tot t / L * L := by omega
      rw [h5, Nat.add_mul_mod_self_right, Nat.add_sub_cancel]
      exact Nat.mod_eq_of_lt (by omega)
    have hi : i % L ≠ 0 := by omega
    have hb := (block_of hL hi hit).2.1 hlast
    rw [hhead, if_neg hi, hb, if_pos hbad.2, ← hb, hmono hi (by rw [hb]; exact hbad.2), hb, hmod]

/-- The byte that a query may read past its block is in the array. -/
theorem outS_known {x : Select} {f h : Nat → Byte} (hL : 1 ≤ L) (h1 : 1 ≤ tot t) (hx : BuiltMpeS ty t L TH f (some h) x) {i : Nat} :
    outS ty t L TH x.bits false i = ok (sel t i) := by
  have hBS := BS_eq (TH := TH) ty hL h1
  unfold outS
  by_cases h2 : i % L = 0 ∨ bl t L (i / L) = L
  · rw [if_pos h2]
  · rw [if_neg h2]
    by_cases hk : ks ty t L TH (i / L) = 0
    · rw [if_neg (fun h => h hk), if_neg (fun h => by cases h.1)]
    · rw [if_pos hk]
      unfold answer
      by_cases he : Extra t L (i / L) (sel t i)
      · rw [if_pos he]
        have hm := (ks_dense hk).1
        have hfull := full_of_lt hm
        have hoff := offS_mono (ty := ty) (t := t) (L := L) (TH := TH) (show i / L + 1 ≤ nbk t L by omega)
        have hpos : 1 ≤ tot t / L := by
          generalize i / L = m at hfull
          omega
        have heq := offS_eq (ty := ty) (t := t) (L := L) (TH := TH) (nbk t L)
        have hbl := hx.bl
        have hmore := hx.more (by simp)
        have hlt : offS ty t L TH (i / L + 1) < x.bits.len := by
          have : _ ≤ B t L TH := room_full (t := t) (TH := TH) hL hpos
          omega
        cases hv : x.bits.f (offS ty t L TH (i / L + 1)) with
        | none => exact absurd hv (hx.known h rfl _)
        | some b => rw [uget_ok hlt hv]; rfl
      · rw [if_neg he]

/-- `select(0)`. -/
theorem selectMpe_zero {x : Select} {f : Nat → Byte} {gb : Option (Nat → Byte)} (hL : 1 ≤ L) (hlen : t.len < 2 ^ 29)
    (hE : 2 * nbk t L + 2 + 32 ≤ 2 ^ 32) (hx : BuiltMpeS ty t L TH f gb x) (strict : Bool) : selectMpe ty strict L TH x 0 = ok (2 ^ 32 - 1) := by
  rw [selectMpe_head hL hlen hE hx.supS strict 0 (Nat.zero_le _), Nat.zero_mod, if_pos rfl, Nat.zero_div, en_zero,
    show sub32 0 1 = 2 ^ 32 - 1 by decide]

end MRS.Mran.S32
