import Verif.Proofs.Mranisz.Interleave

/-!
# How two rank queries of one object collide

A query writes `pointer`, then reads it for each word.  If another query writes it in between, the words are
those of the other query's block.
-/

set_option autoImplicit false

namespace MRS.Mran
open Outcome Prog Spec

/-! ## Programs that only read -/

/-- The program ends with `O` and writes nothing. -/
def Quiet {α : Type} (a : Prog α) (m : Cells) (O : Outcome α) : Prop := a.solo m = (O, m)

section
variable {α β : Type} {m : Cells}

theorem solo_bind {a : Prog α} {f : α → Prog β} : ∀ {m m' : Cells} {v : α}, a.solo m = (ok v, m') →
    (a >>= f).solo m = (f v).solo m' := by
  show ∀ {m m' : Cells} {v : α}, a.solo m = (ok v, m') → (a.bind f).solo m = (f v).solo m'
  induction a with
  | done o => intro m m' v h; cases h; rfl
  | get l k ih => intro m m' v h; exact ih _ h
  | put l v k ih => intro m m' v' h; exact ih h

theorem quiet_bind {a : Prog α} {f : α → Prog β} {O : Outcome α} {P : α → Outcome β} (ha : Quiet a m O)
    (hf : ∀ v, Quiet (f v) m (P v)) : Quiet (a >>= f) m (O >>= P) := by
  have key : ∀ (a : Prog α) (m' : Cells), a.solo m' = (O, m) → (a.bind f).solo m' = (O >>= P, m) := by
    intro a
    induction a with
    | done o =>
      intro m' h
      have h1 : o = O := congrArg Prod.fst h
      have h2 : m' = m := congrArg Prod.snd h
      subst h1 h2
      cases o with
      | ok v => exact hf v
      | ub e => rfl
      | abort => rfl
    | get l k ih => intro m' h; exact ih _ m' h
    | put l v k ih => intro m' h; exact ih _ h
  exact key a m ha

theorem quiet_ite {c : Prop} [Decidable c] {a b : Prog α} {A B : Outcome α} (ha : Quiet a m A) (hb : Quiet b m B) :
    Quiet (if c then a else b) m (if c then A else B) := by split <;> assumption

theorem quiet_at2 (o : Nat) (r : Vec (Option Nat)) (k : Nat) :
    Quiet (at2 o r k) m (uget r (m ⟨o, true⟩ + k)) := rfl

theorem quiet_slot1 (o : Nat) (r : Vec (Option Nat)) (e n : Nat) :
    Quiet (slot1A o r e n) m (slot1 r (m ⟨o, true⟩ + e) n) := rfl

theorem quiet_slot2 (o : Nat) (r : Vec (Option Nat)) (n : Nat) :
    Quiet (slot2A o r n) m (slot2 r (m ⟨o, true⟩) n) := rfl

theorem quiet_done (O : Outcome α) : Quiet (done O) m O := rfl
end

/-! ## The head of a query in a block that is neither all zeros nor all ones -/

/-- The ones of block `q` are neither 0 nor 512. -/
def Mix (t : Vec Byte) (q : Nat) : Prop :=
  T t (512 * q) < T t (512 * q + 512) ∧ T t (512 * q + 512) < T t (512 * q) + 512

theorem Mix.not_hom {t : Vec Byte} {q : Nat} (h : Mix t q) : ¬ Hom t q := fun hh => by
  have := hh.count
  unfold Mix at h
  omega

theorem Mix.diff {t : Vec Byte} {q : Nat} (h : Mix t q) (hlen : t.len < 2 ^ 60) (hq : q < nblk t) :
    ¬ sub64 (T t (512 * (q + 1))) (T t (512 * q)) &&& 511 = 0 := by
  have h1 := T_le t (512 * (q + 1))
  have h2 := nblk_le t
  unfold Mix at h
  rw [sub64_eq (T_mono t (by omega)) (by simp only [W64]; omega)]
  rw [show (511 : Nat) = 2 ^ 9 - 1 by rfl, Nat.and_two_pow_sub_one_eq_mod]
  rw [show 512 * (q + 1) = 512 * q + 512 by omega]
  omega

theorem diff_of_not_mix {t : Vec Byte} {q : Nat} (h : ¬ Mix t q) (hlen : t.len < 2 ^ 60) (hq : q < nblk t) :
    sub64 (T t (512 * (q + 1))) (T t (512 * q)) &&& 511 = 0 := by
  have h1 := T_le t (512 * (q + 1))
  have h2 := nblk_le t
  have h3 := T_mono t (show 512 * q ≤ 512 * q + 512 by omega)
  have h4 := T_diff t (512 * q) 512
  unfold Mix at h
  rw [sub64_eq (T_mono t (by omega)) (by simp only [W64]; omega)]
  rw [show (511 : Nat) = 2 ^ 9 - 1 by rfl, Nat.and_two_pow_sub_one_eq_mod]
  rw [show 512 * (q + 1) = 512 * q + 512 by omega]
  omega

/-- The words of block `q` are at `off`. -/
def Lies (t : Vec Byte) (bits : Vec (Option Word)) (q off : Nat) : Prop :=
  off + 8 ≤ bits.len ∧ ∀ j, j < 8 → bits.f (off + j) = some (tword t (8 * q + j))

/-- The head ends with the rank in front of block `q`, and `pointer` at the words of the block. -/
def Ready (t : Vec Byte) (bits : Vec (Option Word)) (o q : Nat) (head : Prog Head) : Prop :=
  ∀ m, ∃ m', head.solo m = (ok (.block (T t (512 * q))), m') ∧ Lies t bits q (m' ⟨o, false⟩)

theorem headStd_ready {t : Vec Byte} {aR aB : Nat} {x : Basic} (hx : StdOK t aR aB x) (hlen : t.len < 2 ^ 60)
    (o : Nat) {i : Nat} (hi : i < 512 * nblk t) (hm : Mix t (i / 512)) :
    Ready t x.bits o (i / 512) (headStd o x i) := by
  intro m
  obtain ⟨s, hs, hr, hb⟩ := hx.pass
  have hq : i / 512 < nblk t := by omega
  have rl := hs.rlen
  have bl := hs.blen
  have hh := hm.not_hom
  have := stored_lt hq hh
  unfold headStd
  simp only []
  rw [hr, hb, uget_ok (by omega) (hs.r0 (i / 512) (by omega)), lift_ok,
    show 2 * (i / 512) + 2 = 2 * (i / 512 + 1) by omega,
    uget_ok (by omega) (hs.r0 (i / 512 + 1) (by omega)), lift_ok, if_neg (hm.diff hlen hq),
    uget_ok (by omega) (hs.r1 _ hq), lift_ok]
  refine ⟨_, rfl, ?_⟩
  rw [cset_same]
  exact ⟨by omega, fun j hj => hs.w _ hq hh j hj⟩

/-- A query in a block of zeros or of ones touches no member. -/
theorem rankStdA_known {t : Vec Byte} {aR aB : Nat} {x : Basic} (hx : StdOK t aR aB x) (hlen : t.len < 2 ^ 60)
    (o : Nat) {i : Nat} (hi : i < 512 * nblk t) (hm : ¬ Mix t (i / 512)) : rankStdA o x i = done (ok (T t i)) := by
  have h2 : ∃ r, rankStdA o x i = done (ok r) := by
    obtain ⟨s, hs, hr, hb⟩ := hx.pass
    have hq : i / 512 < nblk t := by omega
    have rl := hs.rlen
    unfold rankStdA headStd
    simp only []
    rw [hr, uget_ok (by omega) (hs.r0 (i / 512) (by omega)), lift_ok,
      show 2 * (i / 512) + 2 = 2 * (i / 512 + 1) by omega,
      uget_ok (by omega) (hs.r0 (i / 512 + 1) (by omega)), lift_ok, if_pos (diff_of_not_mix hm hlen hq)]
    exact ⟨_, rfl⟩
  obtain ⟨r, e⟩ := h2
  have h3 := rankStdA_val o x i fun _ => 0
  rw [e, rankStd_ok hx hlen hi] at h3
  rw [e, ← h3]; rfl

theorem headCF_ready {t : Vec Byte} {aB : Nat} {x : CF} (hx : CFOK t aB x) (hlen : t.len < 2 ^ 60) (o : Nat) {i : Nat}
    (hi : i < 512 * nblk t) (hm : Mix t (i / 512)) : Ready t x.bits o (i / 512) (headCF o x i) := by
  intro m
  have hq : i / 512 < nblk t := by omega
  have hl := hx.len
  have hN := ne_le t (nblk t)
  have hnl := nblk_le t
  have hh := hm.not_hom
  unfold headCF
  simp only []
  rw [hx.border, hx.bb]
  generalize i / 512 = q at *
  by_cases hb : q < ne t (nblk t)
  · rw [if_pos hb, show q * 8 + q = 9 * q by omega]
    have hnext : x.bits.f (9 * q + 9) = some (BitVec.ofNat 64 (T t (512 * (q + 1)))) := by
      by_cases hb1 : q + 1 < ne t (nblk t)
      · exact hx.l0 (q + 1) hb1
      · have := hx.r0 (q + 1) (by omega) (by omega)
        rw [show 9 * ne t (nblk t) + 2 * (q + 1 - ne t (nblk t)) = 9 * q + 9 by omega] at this
        exact this
    have e1 : ∀ m : Cells, m ⟨o, false⟩ = 9 * q → uget x.bits (m ⟨o, false⟩) = ok (BitVec.ofNat 64 (T t (512 * q))) :=
      fun m h => by rw [h]; exact uget_ok (by omega) (hx.l0 q hb)
    have e2 : ∀ m : Cells, m ⟨o, false⟩ = 9 * q →
        uget x.bits (m ⟨o, false⟩ + 9) = ok (BitVec.ofNat 64 (T t (512 * (q + 1)))) :=
      fun m h => by rw [h]; exact uget_ok (by omega) hnext
    rw [solo_bind (m' := cset m ⟨o, false⟩ (9 * q)) (v := ()) rfl, solo_bind (m' := cset m ⟨o, false⟩ (9 * q))
      (v := 9 * q) (by show (ok (cset m _ _ _), _) = _; rw [cset_same]),
      uget_ok (by omega) (hx.l0 q hb), lift_ok, solo_bind (m' := cset m ⟨o, false⟩ (9 * q))
      (v := 9 * q) (by show (ok (cset m _ _ _), _) = _; rw [cset_same]), uget_ok (by omega) hnext, lift_ok,
      toNat_T hlen (by omega), toNat_T hlen (by omega), if_neg (hm.diff hlen hq)]
    refine ⟨_, rfl, ?_⟩
    rw [cset_same, cset_same]
    exact ⟨by omega, fun j hj => hx.lw q hb hh j hj⟩
  · rw [if_neg hb, uget_ok (by omega) (hx.r0 q (by omega) (by omega)), lift_ok]
    have hnext := hx.r0 (q + 1) (by omega) (by omega)
    rw [show 9 * ne t (nblk t) + 2 * (q + 1 - ne t (nblk t)) =
      9 * ne t (nblk t) + 2 * (q - ne t (nblk t)) + 2 by omega] at hnext
    obtain ⟨P, p1, p2, p3⟩ := hx.rw q (by omega) hq hh
    rw [uget_ok (by omega) hnext, lift_ok, toNat_T hlen (by omega), toNat_T hlen (by omega), if_neg (hm.diff hlen hq),
      uget_ok (by omega) p1, lift_ok, BitVec.toNat_ofNat, Nat.mod_eq_of_lt (by omega)]
    refine ⟨_, rfl, ?_⟩
    rw [cset_same]
    exact ⟨by omega, p3⟩

/-- The entries of a superblock that a query reads. -/
theorem bch_head {t : Vec Byte} {g : Nat → Bool} {aR aB : Nat} {x : Basic} (hx : BchOK t g aR aB x)
    (hlen : t.len < 2 ^ 60) {st : Nat} (hq : st < nblk t) :
    ∃ b0, uget x.ranks (19 * (st / 64) + 0) = ok b0 ∧
    (if st % 64 > 0 then do ok (b0 + (← slot1 x.ranks (19 * (st / 64) + 0) (st % 64))) else ok b0) =
      ok (T t (512 * st)) ∧
    (if st % 64 = 63 then uget x.ranks (19 * (st / 64) + 19) else do
      let b ← uget x.ranks (19 * (st / 64) + 0)
      ok (b + (← slot2 x.ranks (19 * (st / 64)) (st % 64)))) = ok (T t (512 * (st + 1))) ∧
    (¬ Hom t st → (if st % 64 > 0 then do
        let o ← uget x.ranks (19 * (st / 64) + 17)
        let f ← uget x.ranks (19 * (st / 64) + (17 + 1))
        let m ← maskAt (st % 64)
        ok (o + 8 * popcnt (BitVec.ofNat 64 f &&& m))
      else uget x.ranks (19 * (st / 64) + 17)) = ok (8 * ne t st)) := by
  have hrl := hx.rlen
  obtain ⟨b, hb, hf⟩ := hx.sup (st / 64) (by omega)
  have hst : 64 * (st / 64) + st % 64 = st := by omega
  have hn : st % 64 < 64 := Nat.mod_lt _ (by decide)
  generalize hS : st / 64 = S at *
  generalize hN : st % 64 = n at *
  have hb0 : tv t (64 * S) = T t (512 * (64 * S)) := if_pos (by omega)
  have e0 : uget x.ranks (19 * S + 0) = ok (tv t (64 * S)) := by
    rw [uget_ok (by omega) (hf 0 (by omega)), hb.b0]
  refine ⟨_, e0, ?_, ?_, fun hh => ?_⟩
  · by_cases h0 : n > 0
    · rw [if_pos h0]
      have fd := field hb hlen (j := n - 1) (by omega) (by omega)
      rw [show (n - 1) / 4 + 1 = (n + 3) / 4 by omega, show (n - 1) % 4 = (n + 3) % 4 by omega] at fd
      rw [slot1_eq (by omega) (by rw [Nat.add_zero]; exact hf _ (by omega)) fd.1, ok_bind, fd.2,
        Nat.mod_eq_of_lt (dv_lt hlen (by omega) (by omega)), dv_eq hlen (by omega), hb0,
        show 64 * S + (n - 1) + 1 = st by omega]
      have := T_mono t (show 512 * (64 * S) ≤ 512 * st by omega)
      congr 1; omega
    · rw [if_neg h0, hb0, show 64 * S = st by omega]
  · by_cases h0 : n = 63
    · rw [if_pos h0]
      obtain ⟨b', hb', hf'⟩ := hx.sup (S + 1) (by omega)
      rw [show 19 * S + 19 = 19 * (S + 1) + 0 by omega, uget_ok (by omega) (hf' 0 (by omega)), hb'.b0]
      unfold tv
      rw [if_pos (by omega), show 64 * (S + 1) = st + 1 by omega]
    · rw [if_neg h0, e0, ok_bind]
      have fd := field hb hlen (j := n) (by omega) (by omega)
      rw [slot2_eq (by omega) (hf _ (by omega)) fd.1, ok_bind, fd.2,
        Nat.mod_eq_of_lt (dv_lt hlen (by omega) (by omega)), dv_eq hlen (by omega), hb0, hst]
      have := T_mono t (show 512 * (64 * S) ≤ 512 * (st + 1) by omega)
      congr 1; omega
  · have hlt := stored_lt hq hh
    have hto : to t (64 * S) = 8 * ne t (64 * S) := if_pos (by omega)
    by_cases h0 : n > 0
    · rw [if_pos h0, uget_ok (by omega) (hf 17 (by omega)), ok_bind,
        uget_ok (by omega) (hf 18 (by omega)), ok_bind, maskAt_ok hn, ok_bind, popcnt_mask _ hn,
        hb.off, hb.flags, flg_count _ (by omega), hto]
      have := psum_ev g (show 64 * S + n ≤ nblk t by omega)
      rw [hst] at this
      congr 1; omega
    · rw [if_neg h0, uget_ok (by omega) (hf 17 (by omega)), hb.off, hto, show 64 * S = st by omega]

theorem headBch_ready {t : Vec Byte} {g : Nat → Bool} {aR aB : Nat} {x : Basic} (hx : BchOK t g aR aB x)
    (hlen : t.len < 2 ^ 60) (o : Nat) {i : Nat} (hi : i < 512 * nblk t) (hm : Mix t (i / 512)) :
    Ready t x.bits o (i / 512) (headBch o x i) := by
  intro m
  have hq : i / 512 < nblk t := by omega
  have hbl := hx.blen
  have hh := hm.not_hom
  have hlt := stored_lt hq hh
  obtain ⟨b0, e0, e1, e2, e3⟩ := bch_head hx hlen hq
  unfold headBch
  simp only []
  have hp : cset m ⟨o, true⟩ (19 * (i / 512 / 64)) ⟨o, true⟩ = 19 * (i / 512 / 64) := cset_same _ _ _
  rw [solo_bind (m' := cset m ⟨o, true⟩ (19 * (i / 512 / 64))) (v := ()) rfl]
  generalize cset m ⟨o, true⟩ (19 * (i / 512 / 64)) = m1 at hp
  rw [← hp] at e0 e1 e2 e3
  rw [solo_bind (m' := m1) (v := b0) (by rw [← e0]; rfl)]
  rw [solo_bind (m' := m1) (v := T t (512 * (i / 512))) (by
    rw [← e1]
    exact quiet_ite (quiet_bind (quiet_slot1 _ _ _ _) fun _ => quiet_done _) (quiet_done _))]
  rw [solo_bind (m' := m1) (v := T t (512 * (i / 512 + 1))) (by
    rw [← e2]
    exact quiet_ite (quiet_at2 _ _ _) (quiet_bind (quiet_at2 _ _ _) fun _ => quiet_bind (quiet_slot2 _ _ _) fun _ =>
      quiet_done _))]
  rw [if_neg (hm.diff hlen hq)]
  rw [solo_bind (m' := m1) (v := 8 * ne t (i / 512)) (by
    rw [← e3 hh]
    exact quiet_ite (quiet_bind (quiet_at2 _ _ _) fun _ => quiet_bind (quiet_at2 _ _ _) fun _ =>
      quiet_bind (quiet_done _) fun _ => quiet_done _) (quiet_at2 _ _ _))]
  refine ⟨_, rfl, ?_⟩
  rw [cset_same]
  exact ⟨by omega, fun j hj => hx.w _ hq hh j hj⟩

/-! ## The collision -/

theorem inBlock_from {t : Vec Byte} {bits : Vec (Option Word)} {off q i : Nat} (hi : i < 512) (h : Lies t bits q off)
    (r : Nat) : inBlock bits off r i = ok (r + (T t (512 * q + i) - T t (512 * q))) := by
  have hsh : ∀ (n a r c : Nat),
      forFrom a n (fun k r => do let w ← uget bits (off + k); ok (r + popcnt w)) (r + c) =
      (forFrom a n (fun k r => do let w ← uget bits (off + k); ok (r + popcnt w)) r >>= fun s => ok (s + c)) := by
    intro n
    induction n with
    | zero => intro a r c; rfl
    | succ n ih =>
      intro a r c
      unfold forFrom
      cases he : uget bits (off + a) with
      | ok w =>
        simp only [he, ok_bind]
        rw [show r + c + popcnt w = r + popcnt w + c by omega, ih]
      | ub e => simp only [he]; rfl
      | abort => simp only [he]; rfl
  have key : ∀ r c : Nat, inBlock bits off (r + c) i = (inBlock bits off r i >>= fun s => ok (s + c)) := by
    intro r c
    unfold inBlock
    show (forFrom 0 (i / 64) _ (r + c) >>= _) = _
    rw [hsh]
    show _ = ((forFrom 0 (i / 64) _ r >>= _) >>= _)
    simp only [bind_assoc', ok_bind]
    have : ∀ a b c : Nat, a + b + c = a + c + b := fun a b c => by omega
    simp only [this _ c]
  have h1 := inBlock_ok (t := t) hi h.1 h.2
  have h2 := key 0 (T t (512 * q))
  have h3 := key 0 r
  rw [Nat.zero_add] at h2 h3
  rw [h1] at h2
  rw [h3]
  cases e : inBlock bits off 0 i with
  | ok s =>
    rw [e, ok_bind] at h2
    injection h2 with h2
    rw [ok_bind]
    congr 1; omega
  | ub e' => rw [e] at h2; cases h2
  | abort => rw [e] at h2; cases h2

/-- Thread `t` is about to read words, thread `u` moves `pointer`, then `t` goes on. -/
theorem collide {work : Nat → Work} {m : Cells} {a b : Nat} (hab : a ≠ b) {t : Vec Byte}
    {bits : Vec (Option Word)} {o i : Nat} {ha hb : Prog Head} {f : Head → Prog Nat} {q q' : Nat} (hi : i < 512)
    (ea : (work a).act = ha >>= tailA bits o i) (eb : (work b).act = hb >>= f)
    (ra : Ready t bits o q ha) (rb : Ready t bits o q' hb) :
    ∃ σ, ((Sys.start work m).run σ).thr a =
      .done (ok (T t (512 * q) + (T t (512 * q' + i) - T t (512 * q')))) := by
  obtain ⟨m₁, p₁, -⟩ := ra m
  obtain ⟨n₁, s₁⟩ := Prog.steps_bind ha (tailA bits o i) m _ m₁ p₁
  obtain ⟨m₂, p₂, hl⟩ := rb m₁
  obtain ⟨n₂, s₂⟩ := Prog.steps_bind hb f m₁ _ m₂ p₂
  obtain ⟨n₃, s₃⟩ := (tailA bits o i (.block (T t (512 * q)))).steps_end m₂
  have s₃' := s₃ n₃ (Nat.le_refl _)
  rw [← ea] at s₁
  rw [← eb] at s₂
  refine ⟨List.replicate n₁ a ++ List.replicate n₂ b ++ List.replicate n₃ a, ?_⟩
  rw [Sys.run_append, Sys.run_append, Sys.run_alone a n₁]
  show (((Sys.mk (pset _ a (Prog.steps n₁ (work a).act m).1) (Prog.steps n₁ (work a).act m).2).run _).run _).thr a = _
  rw [s₁, Sys.run_alone b n₂]
  have hb' : ∀ (g : Nat → Prog Nat) x, pset g a x b = g b := fun g x => if_neg fun e => hab e.symm
  have ha' : ∀ (g : Nat → Prog Nat) x, pset g b x a = g a := fun g x => if_neg hab
  have haa : ∀ (g : Nat → Prog Nat) x, pset g a x a = x := fun g x => if_pos rfl
  show ((Sys.mk (pset _ b (Prog.steps n₂ (pset _ a _ b) m₁).1) (Prog.steps n₂ (pset _ a _ b) m₁).2).run _).thr a = _
  rw [hb']
  show ((Sys.mk (pset _ b (Prog.steps n₂ (work b).act m₁).1) (Prog.steps n₂ (work b).act m₁).2).run _).thr a = _
  rw [s₂, Sys.run_alone a n₃]
  show pset _ a (Prog.steps n₃ (pset _ b _ a) m₂).1 a = _
  rw [haa, ha']
  show (Prog.steps n₃ (pset _ a _ a) m₂).1 = _
  rw [haa, s₃']
  show done ((tailA bits o i (.block (T t (512 * q)))).val m₂) = _
  rw [tailA_val]
  show done (inBlock bits (m₂ ⟨o, false⟩) (T t (512 * q)) i) = _
  rw [inBlock_from hi hl]

/-! ## The first access -/

theorem headStd_writes {t : Vec Byte} {aR aB : Nat} {x : Basic} (hx : StdOK t aR aB x) (hlen : t.len < 2 ^ 60)
    (o : Nat) {i : Nat} (hi : i < 512 * nblk t) (hm : Mix t (i / 512)) : (rankStdA o x i).Writes ⟨o, false⟩ := by
  obtain ⟨s, hs, hr, hb⟩ := hx.pass
  have hq : i / 512 < nblk t := by omega
  have rl := hs.rlen
  unfold rankStdA headStd
  simp only []
  rw [hr, uget_ok (by omega) (hs.r0 (i / 512) (by omega)), lift_ok,
    show 2 * (i / 512) + 2 = 2 * (i / 512 + 1) by omega,
    uget_ok (by omega) (hs.r0 (i / 512 + 1) (by omega)), lift_ok, if_neg (hm.diff hlen hq),
    uget_ok (by omega) (hs.r1 _ hq), lift_ok]
  rfl

theorem headBch_writes (x : Basic) (o i : Nat) : (rankBchA o x i).Writes ⟨o, true⟩ := rfl

theorem selectBchA_writes (strict : Bool) (L TH : Nat) (x : Select) (o i : Nat) :
    (selectBchA strict L TH o x i).Writes ⟨o, true⟩ := rfl

theorem headCF_writes {t : Vec Byte} {aB : Nat} {x : CF} (hx : CFOK t aB x) (hlen : t.len < 2 ^ 60) (o : Nat) {i : Nat}
    (hi : i < 512 * nblk t) (hm : Mix t (i / 512)) : (rankCFA o x i).Writes ⟨o, false⟩ := by
  have hq : i / 512 < nblk t := by omega
  have hl := hx.len
  have hN := ne_le t (nblk t)
  have hnl := nblk_le t
  have hh := hm.not_hom
  unfold rankCFA headCF
  simp only []
  rw [hx.border, hx.bb]
  generalize i / 512 = q at *
  by_cases hb : q < ne t (nblk t)
  · rw [if_pos hb]; rfl
  · rw [if_neg hb, uget_ok (by omega) (hx.r0 q (by omega) (by omega)), lift_ok]
    have hnext := hx.r0 (q + 1) (by omega) (by omega)
    rw [show 9 * ne t (nblk t) + 2 * (q + 1 - ne t (nblk t)) =
      9 * ne t (nblk t) + 2 * (q - ne t (nblk t)) + 2 by omega] at hnext
    obtain ⟨P, p1, p2, p3⟩ := hx.rw q (by omega) hq hh
    rw [uget_ok (by omega) hnext, lift_ok, toNat_T hlen (by omega), toNat_T hlen (by omega), if_neg (hm.diff hlen hq),
      uget_ok (by omega) p1, lift_ok]
    rfl

end MRS.Mran
