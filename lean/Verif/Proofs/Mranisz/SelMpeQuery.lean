import Verif.Proofs.Mranisz.SelMpePlace

/-! # Compressed select with pairs left out: reading a block -/

set_option autoImplicit false

namespace MRS.Mran
open Outcome Spec Poppy

variable {ty : MpeType} {t : Vec Byte} {L TH : Nat}

/-- With a full block the first loop counts no less than the second writes. -/
theorem room_full (hL : 1 ≤ L) (h1 : 1 ≤ tot t / L) :
    off t L TH (nbk t L) ≤ psum (sz1 t L TH) (tot t / L) + szLast t L TH := by
  have hfull : off t L TH (tot t / L) ≤ psum (sz1 t L TH) (tot t / L) :=
    psum_le (fun m hm => wd_le hL hm)
  unfold szLast
  by_cases hr : tot t % L > 0
  · have hn : nbk t L = tot t / L + 1 := by unfold nbk; rw [if_pos hr]
    rw [if_pos hr, hn, off_succ]
    simp only []
    rw [ceil8, if_neg (show ¬ tot t / L = 0 by omega)]
    have hw : wd t L TH (tot t / L) ≤ (if bl t L (tot t / L) > TH then 8 * (tot t % L) else (bl t L (tot t / L) + 7) / 8) := by
      unfold wd sparse mono sq sb
      simp only [decide_eq_true_eq, if_neg (Nat.lt_irrefl _)]
      by_cases h1 : bl t L (tot t / L) > TH
      · rw [if_pos h1, if_pos h1]; exact Nat.le_refl _
      · rw [if_neg h1, if_neg h1]
        split
        · omega
        · exact Nat.le_refl _
    omega
  · have hn : nbk t L = tot t / L := by unfold nbk; rw [if_neg hr, Nat.add_zero]
    rw [if_neg hr, hn]
    omega

/-! ## The last steps -/

/-- The buffer holds `Y` bytes of the block, from byte `8 * G`. -/
structure BufAt (t : Vec Byte) (L m G Y : Nat) (buf : Vec (Option Byte)) : Prop where
  len : buf.len = 8
  le : Y ≤ 8
  val : ∀ y, y < Y → buf.f y = some (bb t L m (8 * G + y))

theorem byteLoopS_ok {buf : Vec (Option Byte)} {m i q G Y : Nat} (hb : BufAt t L m G Y buf) (hq : Target t L m i q)
    (hlo : en t L m + 64 * G ≤ q) (hhi : q < en t L m + 64 * G + 8 * Y) : ∀ fuel c, en t L m + 8 * (8 * G + c) ≤ q →
    (q - en t L m) / 8 < fuel + (8 * G + c) →
    byteLoop buf fuel (m * L + i - T t (en t L m + 8 * (8 * G + c))) (en t L m + 8 * (8 * G + c)) c =
      ok (m * L + i - T t (en t L m + 8 * ((q - en t L m) / 8)), en t L m + 8 * ((q - en t L m) / 8),
        (q - en t L m) / 8 - 8 * G) := by
  intro fuel
  induction fuel with
  | zero => intro c h1 h2; omega
  | succ fuel ih =>
    intro c h1 h2
    unfold byteLoop
    have hle := T_mono t h1
    have hrk := hq.rank
    have hhi' := hq.hi
    have hlo' := hq.lo
    have hl := hb.len
    have hY := hb.le
    rw [uget_ok (by omega) (hb.val c (by omega)), ok_bind]
    simp only []
    rw [byte_table]
    unfold bb
    generalize hy : 8 * G + c = y at *
    have hcnt := bacc_cnt (t := t) (en t L m + 8 * y) (x := min 8 (sb t L m - 8 * y)) (by omega) (Nat.le_refl 8)
    rw [show min 8 (min 8 (sb t L m - 8 * y)) = min 8 (sb t L m - 8 * y) by omega] at hcnt
    by_cases hin : q < en t L m + 8 * y + 8
    · have hT := T_mono t (show q + 1 ≤ en t L m + 8 * y + min 8 (sb t L m - 8 * y) by omega)
      rw [T_succ, hq.bit] at hT
      have h1' : (true : Bool).toNat = 1 := rfl
      rw [if_pos (by omega), show (q - en t L m) / 8 = y by omega, show y - 8 * G = c by omega]
    · have hT := T_mono t (show en t L m + 8 * y + min 8 (sb t L m - 8 * y) ≤ q by omega)
      rw [if_neg (by omega)]
      have hx : min 8 (sb t L m - 8 * y) = 8 := by omega
      rw [hx] at hcnt hT ⊢
      have := ih (c + 1) (by omega) (by omega)
      rw [← this]
      congr 1
      · rw [show en t L m + 8 * (8 * G + (c + 1)) = en t L m + 8 * y + 8 by omega]
        omega
      · omega

theorem tailS_ok {buf : Vec (Option Byte)} {m i q G Y : Nat} (hb : BufAt t L m G Y buf) (hq : Target t L m i q)
    (hlo : en t L m + 64 * G ≤ q) (hhi : q < en t L m + 64 * G + 8 * Y) :
    tailS buf (m * L + i - T t (en t L m + 64 * G)) (en t L m + 64 * G) = ok q := by
  have hl := hb.len
  have hY := hb.le
  have hrk := hq.rank
  have hhi' := hq.hi
  have e := byteLoopS_ok hb hq hlo hhi (buf.len + 1) 0 (by omega) (by omega)
  rw [show en t L m + 8 * (8 * G + 0) = en t L m + 64 * G by omega] at e
  unfold tailS
  rw [e, ok_bind]
  simp only []
  rw [uget_ok (by omega) (hb.val ((q - en t L m) / 8 - 8 * G) (by omega)), ok_bind,
    show 8 * G + ((q - en t L m) / 8 - 8 * G) = (q - en t L m) / 8 by omega]
  unfold bb
  congr 1
  generalize hc' : (q - en t L m) / 8 = c'
  have hxx : min 8 (sb t L m - 8 * c') ≤ 8 := by omega
  have hle := T_mono t (show en t L m + 8 * c' ≤ q by omega)
  have hcnt := bacc_cnt (t := t) (en t L m + 8 * c') hxx (j := q - (en t L m + 8 * c')) (by omega)
  rw [show min (q - (en t L m + 8 * c')) (min 8 (sb t L m - 8 * c')) = q - (en t L m + 8 * c') by omega,
    show en t L m + 8 * c' + (q - (en t L m + 8 * c')) = q by omega] at hcnt
  rw [bitLoop_ok _ _ 8 0 _ (q - (en t L m + 8 * c')) rfl (Nat.zero_le _) (by omega) (by omega) ?_ ?_]
  · omega
  · rw [bacc_bit _ hxx (by omega), show en t L m + 8 * c' + (q - (en t L m + 8 * c')) = q by omega, hq.bit,
      decide_eq_true (by omega)]
    rfl
  · show _ = 0 + _
    omega

/-! ## The loop over pairs -/

/-- State before pair `p`; `D` is where the kept pairs start. -/
structure TakeAt (t : Vec Byte) (L m k D i q p : Nat) (s : Take) : Prop where
  buf : BufAt t L m (p / 4) (2 * (p % 4)) s.buf
  bc : s.bc = 2 * (p % 4)
  i : s.i = m * L + i - T t (en t L m + 64 * (p / 4))
  select : s.select = en t L m + 64 * (p / 4)
  data : s.data = D + 2 * kp k (bb t L m) p
  rest : s.rest = sb t L m + 1 - 16 * p
  le : 16 * p ≤ sb t L m
  lo : en t L m + 64 * (p / 4) ≤ q

/-- The loop reads the byte after the block. -/
def Extra (t : Vec Byte) (L m q : Nat) : Prop :=
  sb t L m % 8 = 0 ∧ sb t L m % 64 ≠ 0 ∧ (q - en t L m) / 64 = sb t L m / 64

instance (t : Vec Byte) (L m q : Nat) : Decidable (Extra t L m q) := by unfold Extra; infer_instance

/-- The answer `q`, after the byte at `e` if that is read. -/
def answer (t : Vec Byte) (L m q : Nat) (bits : Vec (Option Byte)) (e : Nat) : Outcome Nat :=
  if Extra t L m q then (do
    let _ ← uget bits e
    ok q)
  else ok q

theorem put_take {s : Take} {x : Byte} (h : s.bc < s.buf.len) :
    s.put x = ok { s with buf := ⟨s.buf.len, fun j => if j = s.bc then some x else s.buf.f j⟩, bc := s.bc + 1 } := by
  unfold Take.put
  rw [Vec.set_ok _ h]
  rfl

theorem BufAt.push {m G Y : Nat} {buf : Vec (Option Byte)} (h : BufAt t L m G Y buf) (hY : Y < 8) {x : Byte}
    (hx : x = bb t L m (8 * G + Y)) : BufAt t L m G (Y + 1) ⟨buf.len, fun j => if j = Y then some x else buf.f j⟩ := by
  refine ⟨h.len, hY, fun y hy => ?_⟩
  show (if y = Y then _ else _) = _
  by_cases hyY : y = Y
  · rw [if_pos hyY, hx, hyY]
  · rw [if_neg hyY, h.val y (by omega)]

theorem BufAt.keep {m G Y : Nat} {buf : Vec (Option Byte)} (h : BufAt t L m G Y buf) {z : Nat} (hz : Y ≤ z) (x : Byte) :
    BufAt t L m G Y ⟨buf.len, fun j => if j = z then some x else buf.f j⟩ := by
  refine ⟨h.len, h.le, fun y hy => ?_⟩
  show (if y = z then _ else _) = _
  rw [if_neg (by omega), h.val y hy]

theorem dp_one {c : Nat → Byte} {p : Nat} (h : dp 1 c p = true) : fp c p = false := by
  rcases dp_cases h with ⟨a, b, d⟩ | ⟨a, -, -⟩
  · unfold dp dropped at h
    rw [b, d] at h
    exact absurd h (by decide)
  · exact a

theorem dp_two {c : Nat → Byte} {p : Nat} (h : dp 2 c p = true) : fp c p = true := by
  rcases dp_cases h with ⟨a, -, -⟩ | ⟨a, b, d⟩
  · exact a
  · unfold dp dropped at h
    rw [b, d] at h
    exact absurd h (by decide)

/-- What follows a pair of the block. -/
theorem take_next {bits : Vec (Option Byte)} {m k o o2 D i q e fuel p : Nat} (hq : Target t L m i q)
    (hp : p < nby t L m / 2)
    (ih : ∀ s, TakeAt t L m k D i q (p + 1) s → takeLoop bits k o o2 fuel (p + 1) s = answer t L m q bits e)
    {s : Take} (hbuf : BufAt t L m (p / 4) (2 * (p % 4) + 2) s.buf) (hbc : s.bc = 2 * (p % 4) + 2)
    (hi : s.i = m * L + i - T t (en t L m + 64 * (p / 4))) (hsel : s.select = en t L m + 64 * (p / 4))
    (hdata : s.data = D + 2 * kp k (bb t L m) (p + 1)) (hrest : s.rest = sb t L m + 1 - 16 * p)
    (hlo : en t L m + 64 * (p / 4) ≤ q) :
    (if s.rest ≤ 16 then tailS s.buf s.i s.select
    else
      if s.bc % 8 = 0 then load8 true s.buf 0 >>= fun w =>
        (if popcnt w ≥ s.i then tailS s.buf s.i s.select
        else takeLoop bits k o o2 fuel (p + 1)
          { s with rest := s.rest - 16, i := s.i - popcnt w, select := s.select + 64, bc := 0 })
      else takeLoop bits k o o2 fuel (p + 1) { s with rest := s.rest - 16 }) = answer t L m q bits e := by
  have hhi := hq.hi
  have hlo' := hq.lo
  have hrk := hq.rank
  unfold nby at hp
  unfold answer
  by_cases hr : s.rest ≤ 16
  · rw [if_pos hr, if_neg (by unfold Extra; omega), hi, hsel]
    exact tailS_ok hbuf hq hlo (by omega)
  · rw [if_neg hr]
    by_cases h8 : s.bc % 8 = 0
    · rw [if_pos h8]
      have hp4 : p % 4 = 3 := by omega
      have hle := T_mono t hlo
      rw [load8_ok (b := fun k => bacc t (en t L m + 64 * (p / 4) + 8 * k) 8) (Or.inr rfl) (by rw [hbuf.len]; exact Nat.le_refl 8)
        (by
          intro y hy
          rw [Nat.zero_add, hbuf.val y (by omega)]
          unfold bb
          rw [show min 8 (sb t L m - 8 * (8 * (p / 4) + y)) = 8 by omega,
            show en t L m + 8 * (8 * (p / 4) + y) = en t L m + 64 * (p / 4) + 8 * y by omega]), ok_bind, leWord_pop]
      have hsum := bacc_sum (t := t) (en t L m + 64 * (p / 4)) 8
      by_cases hge : psum (fun k => bcnt (bacc t (en t L m + 64 * (p / 4) + 8 * k) 8) 8) 8 ≥ s.i
      · have hqlt : q < en t L m + 64 * (p / 4) + 8 * 8 := lt_of_T hrk hq.bit (by omega)
        rw [if_pos hge, if_neg (by unfold Extra; omega), hi, hsel]
        exact tailS_ok hbuf hq hlo (by omega)
      · have hqge := ge_of_T (X := en t L m + 64 * (p / 4) + 8 * 8) hrk hq.bit (by omega)
        rw [if_neg hge]
        refine ih _ ⟨⟨hbuf.len, by omega, by intro y hy; omega⟩, ?_, ?_, ?_, hdata, ?_, by omega, by omega⟩
        · show 0 = _; omega
        · show s.i - _ = _
          rw [show en t L m + 64 * ((p + 1) / 4) = en t L m + 64 * (p / 4) + 8 * 8 by omega]
          omega
        · show s.select + 64 = _; omega
        · show s.rest - 16 = _; omega
    · rw [if_neg h8]
      refine ih _ ⟨?_, ?_, ?_, ?_, hdata, ?_, by omega, by omega⟩
      · rw [show (p + 1) / 4 = p / 4 by omega, show 2 * ((p + 1) % 4) = 2 * (p % 4) + 2 by omega]
        exact hbuf
      · show s.bc = _; omega
      · show s.i = _; rw [hi, show (p + 1) / 4 = p / 4 by omega]
      · show s.select = _; rw [hsel, show (p + 1) / 4 = p / 4 by omega]
      · show s.rest - 16 = _; omega

theorem takeLoop_ok {bits : Vec (Option Byte)} {m k o i q : Nat} (hk : k ≠ 0) (hk4 : k < 4)
    (hbl : bl t L m = sb t L m + 1)
    (hP : Packed k (bb t L m) (nby t L m) (tbs t L m) o bits)
    (hlenb : o + (hdS k (tbs t L m) + 2 * kp k (bb t L m) (nby t L m / 2) + nby t L m % 2) ≤ bits.len)
    (hq : Target t L m i q) : ∀ fuel p s, fuel + p = 8 * tbs t L m →
    TakeAt t L m k (o + hdS k (tbs t L m)) i q p s →
    takeLoop bits k o (o + tbs t L m) fuel p s = answer t L m q bits
      (o + (hdS k (tbs t L m) + 2 * kp k (bb t L m) (nby t L m / 2) + nby t L m % 2)) := by
  have hS : sb t L m / 128 + 1 = tbs t L m := by unfold tbs; rw [hbl, Nat.add_sub_cancel]
  have hn : nby t L m = (sb t L m + 7) / 8 := rfl
  have hhd := hdS_ge (b := tbs t L m) hk
  have hhi := hq.hi
  have hlo' := hq.lo
  intro fuel
  induction fuel with
  | zero =>
    intro p s hp hs
    have := hs.le
    omega
  | succ fuel ih =>
    intro p s hp hs
    have hle := hs.le
    have hpb : p / 8 < tbs t L m := by omega
    have hbl8 := hs.buf.len
    have hbc := hs.bc
    unfold takeLoop
    rw [uget_ok (by omega) (hP.t1 (p / 8) hpb), ok_bind]
    have hmask := mask_table (tbl (bef (nby t L m / 2) (dp k (bb t L m))) (p / 8)) ⟨p % 8, Nat.mod_lt _ (by decide)⟩
    rw [tbl_bit] at hmask
    simp only [] at hmask
    by_cases hmk : bef (nby t L m / 2) (dp k (bb t L m)) p = true
    · rw [if_pos (hmask.2 hmk)]
      unfold bef at hmk
      rw [Bool.and_eq_true, decide_eq_true_iff] at hmk
      obtain ⟨hpn, hdp⟩ := hmk
      have hkp := kp_succ k (bb t L m) p
      rw [if_pos hdp, Nat.add_zero] at hkp
      have hv : (if k = 3 then (do
            let y ← uget bits (o + tbs t L m + p / 8)
            ok (if y &&& byteMasks.getD (p % 8) 0#8 ≠ 0#8 then 255#8 else 0#8))
          else ok (if k = 1 then 0#8 else 255#8)) = ok (bb t L m (2 * p)) ∧ bb t L m (2 * p + 1) = bb t L m (2 * p) := by
        by_cases h3 : k = 3
        · rw [if_pos h3, uget_ok (by have := hhd.2 h3; omega) (hP.t2 h3 (p / 8) hpb), ok_bind]
          have hm2 := mask_table (tbl (bef (nby t L m / 2) (fp (bb t L m))) (p / 8)) ⟨p % 8, Nat.mod_lt _ (by decide)⟩
          rw [tbl_bit] at hm2
          have hb2 : bef (nby t L m / 2) (fp (bb t L m)) p = true ↔ fp (bb t L m) p = true := by
            unfold bef
            rw [decide_eq_true hpn, Bool.true_and]
          rw [hb2] at hm2
          simp only [] at hm2
          rcases dp_cases hdp with ⟨a, b, d⟩ | ⟨a, b, d⟩
          · rw [if_pos (hm2.2 a), b, d]; exact ⟨rfl, rfl⟩
          · rw [if_neg (fun h => by have := hm2.1 h; rw [a] at this; cases this), b, d]; exact ⟨rfl, rfl⟩
        · rw [if_neg h3]
          by_cases h1 : k = 1
          · rw [if_pos h1]
            rw [h1] at hdp
            have hf := dp_one hdp
            rcases dp_cases hdp with ⟨a, b, d⟩ | ⟨a, b, d⟩
            · rw [hf] at a; cases a
            · rw [b, d]; exact ⟨rfl, rfl⟩
          · rw [if_neg h1]
            rw [show k = 2 by omega] at hdp
            have hf := dp_two hdp
            rcases dp_cases hdp with ⟨a, b, d⟩ | ⟨a, b, d⟩
            · rw [b, d]; exact ⟨rfl, rfl⟩
            · rw [hf] at a; cases a
      rw [hv.1, ok_bind, put_take (by omega), ok_bind, put_take (by show s.bc + 1 < s.buf.len; omega), ok_bind, ok_bind]
      simp only [Bool.false_eq_true, if_false]
      refine take_next (s := ⟨⟨s.buf.len, fun j => if j = s.bc + 1 then some (bb t L m (2 * p))
          else if j = s.bc then some (bb t L m (2 * p)) else s.buf.f j⟩, s.bc + 1 + 1, s.i, s.select, s.data, s.rest⟩)
          hq hpn (fun s' hs' => ih _ s' (by omega) hs') ?_ ?_ hs.i hs.select ?_ hs.rest hs.lo
      · have b1 := hs.buf.push (x := bb t L m (2 * p)) (by omega) (by congr 1; omega)
        have b2 := b1.push (x := bb t L m (2 * p)) (by omega) (by rw [← hv.2]; congr 1; omega)
        rw [← hbc] at b1 b2
        rw [hbc] at b2 ⊢
        exact b2
      · show s.bc + 1 + 1 = _; omega
      · show s.data = _; rw [hkp]; exact hs.data
    · rw [if_neg (fun h => hmk (hmask.1 h))]
      by_cases hpn : p < nby t L m / 2
      · have hdp : dp k (bb t L m) p = false := by
          unfold bef at hmk
          rw [decide_eq_true hpn, Bool.true_and] at hmk
          exact eq_false_of_ne_true hmk
        have hkp := kp_succ k (bb t L m) p
        rw [hdp, if_neg (by simp)] at hkp
        have hkl := kp_lt hdp hpn
        have hdata := hs.data
        have hrest := hs.rest
        have g0 := hP.kept.kept p hpn hdp 0 (by decide)
        have g1 := hP.kept.kept p hpn hdp 1 (by decide)
        rw [← hdata] at g0 g1
        rw [Nat.add_zero] at g0
        rw [uget_ok (by omega) g0, ok_bind, put_take (by omega), ok_bind]
        rw [if_neg (show ¬ s.rest ≤ 8 by omega)]
        rw [uget_ok (by show s.data + 1 < _; omega) g1, ok_bind, put_take (by show s.bc + 1 < s.buf.len; omega), ok_bind, ok_bind]
        simp only [Bool.false_eq_true, if_false]
        refine take_next (s := ⟨⟨s.buf.len, fun j => if j = s.bc + 1 then some (bb t L m (2 * p + 1))
          else if j = s.bc then some (bb t L m (2 * p + 0)) else s.buf.f j⟩, s.bc + 1 + 1, s.i, s.select, s.data + 2, s.rest⟩)
          hq hpn (fun s' hs' => ih _ s' (by omega) hs') ?_ ?_ hs.i hs.select ?_ hs.rest hs.lo
        · have b1 := hs.buf.push (x := bb t L m (2 * p + 0)) (by omega) (by congr 1; omega)
          have b2 := b1.push (x := bb t L m (2 * p + 1)) (by omega) (by congr 1; omega)
          rw [hbc]
          exact b2
        · show s.bc + 1 + 1 = _; omega
        · show s.data + 2 = _; omega
      · have hdata := hs.data
        have hrest := hs.rest
        have hlo := hs.lo
        have hpe : p = nby t L m / 2 := by omega
        by_cases hodd : nby t L m % 2 = 1
        · have g0 := hP.odd hodd
          rw [← hpe, ← hdata] at g0
          rw [← hpe] at hlenb ⊢
          rw [uget_ok (by omega) g0, ok_bind, put_take (by omega), ok_bind]
          have b1 := hs.buf.push (x := bb t L m (nby t L m - 1)) (by omega) (by congr 1; omega)
          rw [← hbc] at b1
          by_cases hr8 : s.rest ≤ 8
          · rw [if_pos hr8, ok_bind]
            simp only [if_true]
            unfold answer
            rw [if_neg (by unfold Extra; omega), hs.i, hs.select]
            exact tailS_ok b1 hq hlo (by omega)
          · rw [if_neg hr8]
            unfold answer
            rw [if_pos (by unfold Extra; omega)]
            show ((uget bits (s.data + 1) >>= _) >>= _ : Outcome Nat) = _
            rw [show o + (hdS k (tbs t L m) + 2 * kp k (bb t L m) p + nby t L m % 2) = s.data + 1 by omega]
            cases hu : uget bits (s.data + 1) with
            | ok b =>
              rw [ok_bind, ok_bind, put_take (by show s.bc + 1 < s.buf.len; omega), ok_bind, ok_bind]
              simp only [Bool.false_eq_true, if_false]
              rw [if_pos (show s.rest ≤ 16 by omega), hs.i, hs.select]
              exact tailS_ok (b1.keep (by omega) b) hq hlo (by omega)
            | ub f => rfl
            | abort => rfl
        · rw [← hpe] at hlenb ⊢
          rw [show o + (hdS k (tbs t L m) + 2 * kp k (bb t L m) p + nby t L m % 2) = s.data by omega]
          unfold answer
          rw [if_pos (by unfold Extra; omega)]
          cases hu : uget bits s.data with
          | ok b =>
            rw [ok_bind, ok_bind, put_take (by omega), ok_bind]
            rw [if_pos (show s.rest ≤ 8 by omega), ok_bind]
            simp only [if_true]
            rw [hs.i, hs.select]
            exact tailS_ok (hs.buf.keep (by omega) b) hq hlo (by omega)
          | ub f => rfl
          | abort => rfl

/-- A block with pairs left out. -/
theorem takeBlock_ok {bits : Vec (Option Byte)} {m i q : Nat} (hL : 1 ≤ L) (hlen : t.len < 2 ^ 60)
    (hk : ks ty t L TH m ≠ 0) (hd : DataS ty t L TH m bits) (hb : offS ty t L TH (m + 1) ≤ bits.len)
    (hq : Target t L m i q) :
    takeBlock bits (ks ty t L TH m) (offS ty t L TH m) (bl t L m) i (en t L m) =
      answer t L m q bits (offS ty t L TH (m + 1)) := by
  have hm := (ks_dense hk).1
  have hfull := full_of_lt hm
  have hbp := bl_pos (t := t) hL (show m < nbk t L by omega)
  have hbl : bl t L m = sb t L m + 1 := by unfold sb; rw [if_pos hfull]; omega
  have hTm := T_en (t := t) (L := L) (m := m) hL (by omega)
  rw [ob_lt hL (by omega)] at hTm
  rw [offS_succ, wdS_comp hk] at hb
  rw [offS_succ, wdS_comp hk]
  unfold takeBlock
  simp only []
  rw [tableLen_eq hL hlen (by omega)]
  refine takeLoop_ok hk (ks_lt m) hbl (hd.co hk) hb hq _ 0 _ (by omega) ⟨⟨rfl, by omega, by intro y hy; omega⟩, rfl, ?_, rfl,
    ?_, ?_, Nat.zero_le _, ?_⟩
  · show i = _
    rw [show en t L m + 64 * (0 / 4) = en t L m by omega, hTm]
    omega
  · show offS ty t L TH m + _ = _
    unfold hdS
    rw [if_neg hk]
    rfl
  · show bl t L m = _; omega
  · have := hq.lo; omega

/-! ## Queries -/

/-- The flag that a query reads for block `m` is its kind. -/
def FlagRight (ty : MpeType) (t : Vec Byte) (L TH : Nat) (f : Nat → Byte) (m : Nat) : Prop :=
  kq ty (fvS ty t L TH f m) = ks ty t L TH m

theorem flagRight {f : Nat → Byte} {m : Nat} (h : m + 1 < nbk t L ∨ (m + 1 = nbk t L ∧ (tot t % L > 0 ∨ kq ty (f m) = 0))) :
    FlagRight ty t L TH f m := by
  unfold FlagRight fvS
  by_cases h1 : m + 1 < nbk t L
  · rw [if_pos h1, kq_ks]
  · obtain ⟨h2, h3⟩ := h.resolve_left h1
    rw [if_neg h1, ks_last h1]
    by_cases h4 : tot t % L > 0
    · rw [if_pos ⟨h2, h4⟩]
      unfold kq
      split <;> rfl
    · rw [if_neg (fun h => h4 h.2)]
      exact h3.resolve_left h4

/-- What `getSelect_v1`, `getSelect_v2` answer to the one `i` of block `i / L`. -/
def outS (ty : MpeType) (t : Vec Byte) (L TH : Nat) (bits : Vec (Option Byte)) (strict : Bool) (i : Nat) : Outcome Nat :=
  if i % L = 0 ∨ bl t L (i / L) = L then ok (sel t i)
  else if ks ty t L TH (i / L) ≠ 0 then answer t L (i / L) (sel t i) bits (offS ty t L TH (i / L + 1))
  else if strict = true ∧ offS ty t L TH (i / L) % 8 ≠ 0 ∧ (bl t L (i / L) > TH ∨ bl t L (i / L) > 64) then ub .misaligned
  else ok (sel t i)

theorem fetchS_ok {bits : Vec (Option Byte)} {strict : Bool} {i : Nat} (hL : 1 ≤ L) (hlen : t.len < 2 ^ 60)
    (hi : i % L ≠ 0) (hit : i ≤ tot t) (hne : bl t L (i / L) ≠ L) (hk : ks ty t L TH (i / L) = 0)
    (hbits : offS ty t L TH (nbk t L) ≤ bits.len) (hdata : DataS ty t L TH (i / L) bits) :
    fetch strict TH bits (offS ty t L TH (i / L)) (bl t L (i / L)) (i % L) (en t L (i / L)) =
      if strict = true ∧ offS ty t L TH (i / L) % 8 ≠ 0 ∧ (bl t L (i / L) > TH ∨ bl t L (i / L) > 64) then ub .misaligned
      else ok (sel t i) := by
  have hb := (block_of hL hi hit).1
  have hdm := Nat.div_add_mod i L
  have hml := Nat.mod_lt i hL
  rw [Nat.mul_comm] at hdm
  generalize i / L = m at *
  generalize hr : i % L = r at *
  have htg := target (t := t) (m := m) (i := r) hL hb (by omega) hml (by omega)
  rw [hdm] at htg
  have hoff := offS_mono (ty := ty) (t := t) (L := L) (TH := TH) (show m + 1 ≤ nbk t L from hb)
  rw [offS_succ] at hoff
  have hslt : sel t i < 8 * t.len := htg.lt
  unfold fetch
  by_cases hsp : bl t L m > TH
  · rw [if_pos hsp]
    have hs : sparse t L TH m = true := decide_eq_true hsp
    have hw := wdS_sparse (ty := ty) hs
    have hsq : r ≤ sq t L m := by
      have ho := ob_sq hL hb
      by_cases hm : m < tot t / L
      · unfold sq; rw [if_pos hm]; omega
      · have h1 := ho.2 hm
        rw [h1.2.1, ob_all hL] at h1
        omega
    by_cases hmis : strict = true ∧ offS ty t L TH m % 8 ≠ 0
    · rw [if_pos ⟨hmis.1, hmis.2, Or.inl hsp⟩, load8_mis]
      · rfl
      · intro h
        rcases h with h | h
        · rw [hmis.1] at h; cases h
        · omega
    · rw [if_neg (fun h => hmis ⟨h.1, h.2.1⟩),
        load8_ok (b := fun k => BitVec.ofNat 8 (sel t i >>> (8 * k)))]
      · rw [ok_bind, leWord_pos (by omega)]
      · cases strict
        · exact Or.inl rfl
        · right
          have : ¬ offS ty t L TH m % 8 ≠ 0 := fun h => hmis ⟨rfl, h⟩
          omega
      · omega
      · intro k hk
        have := hdata.sp hs (r - 1) (by omega) k hk
        rw [this, show m * L + 1 + (r - 1) = i by omega]
  · rw [if_neg hsp]
    have hs : sparse t L TH m = false := decide_eq_false hsp
    have hmo : mono t L TH m = false := decide_eq_false (fun h => hne h.2)
    have hw : wdS ty t L TH m = (sb t L m + 7) / 8 := by
      unfold wdS wd; rw [if_pos hk, hs, hmo, if_neg (by simp), if_neg (by simp)]
    by_cases hmis : strict = true ∧ offS ty t L TH m % 8 ≠ 0 ∧ bl t L m > 64
    · rw [if_pos ⟨hmis.1, hmis.2.1, Or.inr hmis.2.2⟩, hmis.1, scanBlock_mis hmis.2.1 hmis.2.2]
    · rw [if_neg (fun h => hmis ⟨h.1, h.2.1, h.2.2.resolve_left hsp⟩)]
      apply scanBlock_ok hL hb ?_ ⟨by omega, hdata.de ⟨hs, hmo⟩ hk⟩ htg
      cases strict
      · exact Or.inl rfl
      · right
        by_cases ho : offS ty t L TH m % 8 = 0
        · exact Or.inl ho
        · right
          by_cases h64 : bl t L m ≤ 64
          · exact h64
          · exact absurd ⟨rfl, ho, by omega⟩ hmis

/-- The superblocks of `selects`. -/
structure SupS (ty : MpeType) (t : Vec Byte) (L TH : Nat) (f : Nat → Byte) (v : Vec (Option Nat)) : Prop where
  len : 21 * (nbk t L / 16 + 1) ≤ v.len
  sup : ∀ k, k < nbk t L / 16 + 1 → ∃ b, BucketS ty t L TH f (16 * k) b ∧ ∀ j, j < 21 → v.f (21 * k + j) = some (b.f j)

theorem BuiltMpeS.supS {x : Select} {f : Nat → Byte} {gb : Option (Nat → Byte)} (hx : BuiltMpeS ty t L TH f gb x) :
    SupS ty t L TH f x.sel := ⟨by have := hx.slen; rw [hx.selLen] at this; exact this, hx.sup⟩

/-- What a query does before it reads the block. -/
theorem selectMpe_head {x : Select} {f : Nat → Byte} (hL : 1 ≤ L) (hlen : t.len < 2 ^ 57)
    (hx : SupS ty t L TH f x.sel) (strict : Bool) (i : Nat) (hit : i ≤ tot t) :
    selectMpe ty strict L TH x i =
      if i % L = 0 then ok (sub64 (en t L (i / L)) 1)
      else if bl t L (i / L) = L then ok (add64 (sub64 (en t L (i / L)) 1) (i % L))
      else if bl t L (i / L) > TH then (do
        let off ← offSparse ty x.sel (21 * (i / L / 16)) (i / L % 16)
        let w ← load8 strict x.bits (off + 8 * (i % L - 1))
        ok w.toNat)
      else (do
        let (off, kind) ← offDense ty x.sel (21 * (i / L / 16)) (i / L % 16)
        if kind ≠ 0 then takeBlock x.bits kind off (bl t L (i / L)) (i % L) (en t L (i / L))
        else scanBlock strict x.bits off (bl t L (i / L)) (i % L) (en t L (i / L))) := by
  have hn := nbk_ge t L
  have hsl := hx.len
  have hsel : ∀ m, m ≤ nbk t L → 21 * (m / 16) + m % 16 < x.sel.len ∧
      x.sel.f (21 * (m / 16) + m % 16) = some (en t L m) := by
    intro m hm
    obtain ⟨b, hb, hf⟩ := hx.sup (m / 16) (by omega)
    refine ⟨by omega, ?_⟩
    rw [hf _ (by omega), hb.sel _ (by omega), show 16 * (m / 16) + m % 16 = m by omega]
    unfold hv
    rw [if_pos hm]
  have hle : i / L ≤ tot t / L := Nat.div_le_div_right hit
  have hs := hsel (i / L) (by omega)
  unfold selectMpe
  simp only []
  rw [uget_ok hs.1 hs.2, ok_bind]
  by_cases hi : i % L = 0
  · rw [if_pos hi, if_pos hi]
  · rw [if_neg hi, if_neg hi]
    have hb := (block_of hL hi hit).1
    generalize hm : i / L = m at *
    have hle := en_le (t := t) (L := L) (m := m + 1) hL hb
    have hlt := en_lt hL hb
    have hs2 : (if m % 16 = 15 then uget x.sel (21 * (m / 16) + 21) else uget x.sel (21 * (m / 16) + (m % 16 + 1))) =
        ok (en t L (m + 1)) := by
      have h' := hsel (m + 1) hb
      by_cases h15 : m % 16 = 15
      · rw [if_pos h15]
        rw [show 21 * ((m + 1) / 16) + (m + 1) % 16 = 21 * (m / 16) + 21 by omega] at h'
        exact uget_ok h'.1 h'.2
      · rw [if_neg h15]
        rw [show 21 * ((m + 1) / 16) + (m + 1) % 16 = 21 * (m / 16) + (m % 16 + 1) by omega] at h'
        exact uget_ok h'.1 h'.2
    rw [hs2, ok_bind, sub64_eq (by omega) (by simp only [W64]; omega)]
    rfl

/-- The answers to `1 ≤ i ≤ tot`. -/
theorem selectMpe_ok {x : Select} {f : Nat → Byte} {gb : Option (Nat → Byte)} (hL : 1 ≤ L) (hlen : t.len < 2 ^ 57)
    (hx : BuiltMpeS ty t L TH f gb x) (hf : FitsS ty t L TH) (strict : Bool) {i : Nat} (h1 : 1 ≤ i) (hit : i ≤ tot t) :
    (¬ (Bad t L ∧ tot t / L * L < i) → (i % L ≠ 0 → FlagRight ty t L TH f (i / L)) →
      selectMpe ty strict L TH x i = outS ty t L TH x.bits strict i) ∧
    (Bad t L → tot t / L * L < i →
      selectMpe ty strict L TH x i = ok (en t L (tot t / L) + (i - tot t / L * L) - 1)) := by
  have hlen' : t.len < 2 ^ 60 := by omega
  have htl := tot_le t
  have hhead := selectMpe_head hL hlen hx.supS strict i hit
  have hmono : i % L ≠ 0 → add64 (sub64 (en t L (i / L)) 1) (i % L) = en t L (i / L) + i % L - 1 := by
    intro hi
    have hb := (block_of hL hi hit).1
    have := en_le (t := t) (L := L) hL (Nat.le_of_lt hb)
    have := Nat.mod_le i L
    exact minus_plus (by omega) (by omega)
  refine ⟨fun hbad hfl => ?_, fun hbad hlast => ?_⟩
  · rw [hhead]
    unfold outS
    by_cases hi : i % L = 0
    · rw [if_pos hi, if_pos (Or.inl hi)]
      have hdm := Nat.div_add_mod i L
      rw [Nat.mul_comm, hi, Nat.add_zero] at hdm
      have hp : i / L ≠ 0 := by intro h; rw [h] at hdm; omega
      have hle := sel_spec h1 hit
      have he : en t L (i / L) = sel t i + 1 := by
        unfold en ob
        rw [if_neg hp, hdm, show min i (tot t) = i by omega]
      rw [he, sub64_one (by omega) (by omega), Nat.add_sub_cancel]
    · rw [if_neg hi]
      have hb := block_of hL hi hit
      have hdm := Nat.div_add_mod i L
      have hml := Nat.mod_lt i hL
      rw [Nat.mul_comm] at hdm
      by_cases hm : bl t L (i / L) = L
      · rw [if_pos hm, if_pos (Or.inr hm), hmono hi]
        have hK : i / L < tot t / L := by
          apply hb.2.2
          refine Nat.le_of_not_lt (fun hlt => ?_)
          have he := hb.2.1 hlt
          have h3 := Nat.div_add_mod (tot t) L
          rw [Nat.mul_comm] at h3
          rw [he] at hm
          exact hbad ⟨⟨by omega, hm⟩, hlt⟩
        rw [← all_ones hL hK hm (by omega) hml, hdm]
      · rw [if_neg hm, if_neg (show ¬ (i % L = 0 ∨ bl t L (i / L) = L) from fun h => h.elim hi hm)]
        have hsl := hx.slen
        rw [hx.selLen] at hsl
        have hflag : kq ty (fvS ty t L TH f (i / L)) = ks ty t L TH (i / L) := hfl hi
        obtain ⟨b, hbk, hr⟩ := hx.sup (i / L / 16) (by omega)
        obtain ⟨p1, p2⟩ := placeS hbk hr (by omega) hL hlen hf hb.1
        have hmk := mkM_kq ty (fvS ty t L TH f (i / L))
        have hfet := fun hk => fetchS_ok (ty := ty) (TH := TH) (strict := strict) hL hlen' hi hit hm hk hx.bits
          (hx.data _ hb.1)
        unfold fetch at hfet
        rw [p1, p2, ok_bind, ok_bind]
        simp only []
        rw [hflag] at hmk ⊢
        by_cases hk : ks ty t L TH (i / L) = 0
        · rw [if_neg (show ¬ ks ty t L TH (i / L) ≠ 0 from fun h => h hk), if_neg (show ¬ ks ty t L TH (i / L) ≠ 0 from fun h => h hk), ← hfet hk]
          rw [hk] at hmk
          have h0 : mkM ty (fvS ty t L TH f (i / L)) % 4 = 0 := by rw [hmk]; split <;> rfl
          rw [h0, Nat.mul_zero, ite_self, Nat.add_zero]
        · have hd := ks_dense hk
          have hsp : ¬ bl t L (i / L) > TH := by
            have := hd.2.1
            unfold sparse at this
            exact of_decide_eq_false this
          have htg := target (t := t) (m := i / L) (i := i % L) hL hb.1 (by omega) hml (by omega)
          rw [hdm] at htg
          have hoff := offS_mono (ty := ty) (t := t) (L := L) (TH := TH) (show i / L + 1 ≤ nbk t L by omega)
          have hbits := hx.bits
          rw [if_neg hsp, if_pos hk, if_pos hk, takeBlock_ok hL hlen' hk (hx.data _ hb.1) (by omega) htg]
  · have h3 := Nat.div_add_mod (tot t) L
    have h4 := Nat.mod_lt (tot t) hL
    rw [Nat.mul_comm] at h3
    have hmod : i % L = i - tot t / L * L := by
      have h5 : i = (i - tot t / L * L) + tot t / L * L := by omega
      rw [h5, Nat.add_mul_mod_self_right, Nat.add_sub_cancel]
      exact Nat.mod_eq_of_lt (by omega)
    have hi : i % L ≠ 0 := by omega
    have hb := (block_of hL hi hit).2.1 hlast
    rw [hhead, if_neg hi, hb, if_pos hbad.2, ← hb, hmono hi, hb, hmod]

/-- The byte that a query may read past its block is in the array. -/
theorem outS_known {x : Select} {f h : Nat → Byte} (hL : 1 ≤ L) (hx : BuiltMpeS ty t L TH f (some h) x) {i : Nat} :
    outS ty t L TH x.bits false i = ok (sel t i) := by
  unfold outS
  by_cases h1 : i % L = 0 ∨ bl t L (i / L) = L
  · rw [if_pos h1]
  · rw [if_neg h1]
    by_cases hk : ks ty t L TH (i / L) = 0
    · rw [if_neg (fun h => h hk), if_neg (fun h => by cases h.1)]
    · rw [if_pos hk]
      unfold answer
      by_cases he : Extra t L (i / L) (sel t i)
      · rw [if_pos he]
        have hm := (ks_dense hk).1
        have hfull := full_of_lt hm
        have hoff := offS_mono (ty := ty) (t := t) (L := L) (TH := TH) (show i / L + 1 ≤ nbk t L by omega)
        have hpos : 1 ≤ tot t / L := by
          generalize i / L = m at hfull
          omega
        have heq := offS_eq (ty := ty) (t := t) (L := L) (TH := TH) (nbk t L)
        have hbl := hx.bl
        have hmore := hx.more (by simp)
        have hlt : offS ty t L TH (i / L + 1) < x.bits.len := by
          have := room_full (t := t) (TH := TH) hL hpos
          omega
        cases hv : x.bits.f (offS ty t L TH (i / L + 1)) with
        | none => exact absurd hv (hx.known h rfl _)
        | some b => rw [uget_ok hlt hv]; rfl
      · rw [if_neg he]

/-- `select(0)`. -/
theorem selectMpe_zero {x : Select} {f : Nat → Byte} {gb : Option (Nat → Byte)} (hL : 1 ≤ L) (hlen : t.len < 2 ^ 57)
    (hx : BuiltMpeS ty t L TH f gb x) (strict : Bool) : selectMpe ty strict L TH x 0 = ok (2 ^ 64 - 1) := by
  rw [selectMpe_head hL hlen hx.supS strict 0 (Nat.zero_le _), Nat.zero_mod, if_pos rfl, Nat.zero_div, en_zero,
    show sub64 0 1 = 2 ^ 64 - 1 by decide]

end MRS.Mran
