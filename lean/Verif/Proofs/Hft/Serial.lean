import Verif.Model.Hft.Serial
import Verif.Proofs.Hft.Objects
import Verif.SpecStream

/-! # Streams -/

set_option autoImplicit false

namespace MRS.Hft
open Outcome Spec.Stream

/-! ## Bytes -/

theorem leBytes_length (w v : Nat) : (leBytes w v).length = w := by
  induction w generalizing v with
  | zero => rfl
  | succ w ih => simp [leBytes, ih]

theorem ofLe_leBytes (w v : Nat) : ofLe (leBytes w v) = v % 256 ^ w := by
  induction w generalizing v with
  | zero => simp [leBytes, ofLe, Nat.mod_one]
  | succ w ih => rw [leBytes, ofLe, ih, Nat.pow_succ', Nat.mod_mul]

theorem leBytes_lt (w v : Nat) : ∀ b ∈ leBytes w v, b < 256 := by
  induction w generalizing v with
  | zero => simp [leBytes]
  | succ w ih =>
    intro b hb
    rw [leBytes, List.mem_cons] at hb
    rcases hb with h | h
    · omega
    · exact ih _ b h

theorem leBytes_ofLe (l : List Nat) (h : ∀ b ∈ l, b < 256) : leBytes l.length (ofLe l) = l := by
  induction l with
  | nil => rfl
  | cons b l ih =>
    have hb := h b (by simp)
    rw [List.length_cons, leBytes, ofLe, show (b + 256 * ofLe l) % 256 = b by omega,
      show (b + 256 * ofLe l) / 256 = ofLe l by omega, ih fun x hx => h x (by simp [hx])]

theorem ofLe_lt (l : List Nat) (h : ∀ b ∈ l, b < 256) : ofLe l < 256 ^ l.length := by
  induction l with
  | nil => simp [ofLe]
  | cons b l ih =>
    have hb := h b (by simp)
    have := ih fun x hx => h x (by simp [hx])
    rw [List.length_cons, ofLe, Nat.pow_succ']
    omega

theorem leBytes_add (a b v : Nat) : leBytes (a + b) v = leBytes a v ++ leBytes b (v / 256 ^ a) := by
  induction a generalizing v with
  | zero => simp [leBytes]
  | succ a ih =>
    rw [show a + 1 + b = a + b + 1 by omega, leBytes, leBytes, ih, Nat.div_div_eq_div_mul,
      ← Nat.pow_succ', List.cons_append]

theorem leBytes_mod (a v : Nat) : leBytes a (v % 256 ^ a) = leBytes a v := by
  induction a generalizing v with
  | zero => rfl
  | succ a ih =>
    rw [leBytes, leBytes, Nat.pow_succ', Nat.mod_mul_right_div_self, ih, Nat.mod_mul_right_mod]

theorem mem_reverse_lt {l : List Nat} (h : ∀ b ∈ l, b < 256) : ∀ b ∈ l.reverse, b < 256 :=
  fun b hb => h b (List.mem_reverse.1 hb)

theorem big_eq (w v : Nat) : big w v = (leBytes w v).reverse := by
  induction w generalizing v with
  | zero => rfl
  | succ w ih =>
    rw [leBytes, List.reverse_cons, ← ih]
    unfold big
    rw [List.range_succ, List.map_append]
    congr 1
    · apply List.map_congr_left
      intro j hj
      rw [List.mem_range] at hj
      rw [Nat.div_div_eq_div_mul, ← Nat.pow_succ']
      congr 3
      omega
    · simp

theorem big_length (w v : Nat) : (big w v).length = w := by simp [big]

/-- Swapping the halves and swapping inside each half. -/
theorem swap_step {a : Nat} {s : Nat → Nat} (hs : ∀ v, v < 256 ^ a → s v < 256 ^ a ∧
    leBytes a (s v) = (leBytes a v).reverse) {v : Nat} (hv : v < 256 ^ (a + a)) :
    let r := s (v % 256 ^ a) <<< (8 * a) ||| s (v / 256 ^ a % 256 ^ a)
    r < 256 ^ (a + a) ∧ leBytes (a + a) r = (leBytes (a + a) v).reverse := by
  have hp : 0 < 256 ^ a := Nat.pow_pos (by decide)
  obtain ⟨l1, l2⟩ := hs (v % 256 ^ a) (Nat.mod_lt _ hp)
  obtain ⟨h1, h2⟩ := hs (v / 256 ^ a % 256 ^ a) (Nat.mod_lt _ hp)
  have e256 : 256 ^ a = 2 ^ (8 * a) := pow256 a
  intro r
  have er : r = s (v % 256 ^ a) * 256 ^ a + s (v / 256 ^ a % 256 ^ a) := by
    show _ <<< _ ||| _ = _
    rw [← Nat.shiftLeft_add_eq_or_of_lt (by rw [← e256]; exact h1), Nat.shiftLeft_eq, ← e256]
  refine ⟨?_, ?_⟩
  · rw [er, Nat.pow_add]
    have := Nat.mul_le_mul_right (256 ^ a) (show s (v % 256 ^ a) + 1 ≤ 256 ^ a from l1)
    rw [Nat.add_mul, Nat.one_mul] at this
    omega
  · rw [leBytes_add a a v, List.reverse_append, leBytes_add]
    congr 1
    · rw [← leBytes_mod, er, Nat.mul_add_mod_self_right, Nat.mod_eq_of_lt h1, h2, leBytes_mod]
    · rw [er, Nat.mul_comm, Nat.mul_add_div hp, Nat.div_eq_of_lt h1, Nat.add_zero, l2, leBytes_mod]

theorem swap8_rev {v : Nat} (h : v < 256 ^ 1) : swap8 v < 256 ^ 1 ∧
    leBytes 1 (swap8 v) = (leBytes 1 v).reverse := ⟨h, rfl⟩

theorem swap16_rev {v : Nat} (h : v < 256 ^ 2) : swap16 v < 256 ^ 2 ∧
    leBytes 2 (swap16 v) = (leBytes 2 v).reverse := by
  have := swap_step (a := 1) (s := swap8) (fun v h => swap8_rev h) h
  have e : swap16 v = swap8 (v % 256 ^ 1) <<< (8 * 1) ||| swap8 (v / 256 ^ 1 % 256 ^ 1) := by
    unfold swap16
    rw [show (0xff : Nat) = 2 ^ 8 - 1 from rfl, Nat.and_two_pow_sub_one_eq_mod,
      Nat.shiftRight_eq_div_pow]
  rw [e]; exact this

theorem swap32_rev {v : Nat} (h : v < 256 ^ 4) : swap32 v < 256 ^ 4 ∧
    leBytes 4 (swap32 v) = (leBytes 4 v).reverse := by
  have := swap_step (a := 2) (s := swap16) (fun v h => swap16_rev h) h
  have e : swap32 v = swap16 (v % 256 ^ 2) <<< (8 * 2) ||| swap16 (v / 256 ^ 2 % 256 ^ 2) := by
    unfold swap32
    rw [show (0xffff : Nat) = 2 ^ 16 - 1 from rfl, Nat.and_two_pow_sub_one_eq_mod,
      Nat.shiftRight_eq_div_pow]
  rw [e]; exact this

theorem swap64_rev {v : Nat} (h : v < 256 ^ 8) : swap64 v < 256 ^ 8 ∧
    leBytes 8 (swap64 v) = (leBytes 8 v).reverse := by
  have := swap_step (a := 4) (s := swap32) (fun v h => swap32_rev h) h
  have e : swap64 v = swap32 (v % 256 ^ 4) <<< (8 * 4) ||| swap32 (v / 256 ^ 4 % 256 ^ 4) := by
    unfold swap64
    rw [show (0xffffffff : Nat) = 2 ^ 32 - 1 from rfl, Nat.and_two_pow_sub_one_eq_mod,
      Nat.shiftRight_eq_div_pow]
  rw [e]; exact this

/-- The sizes of the element types. -/
def Wd (w : Nat) : Prop := w = 1 ∨ w = 2 ∨ w = 8

theorem hton_rev {w v : Nat} (hw : Wd w) (h : v < 256 ^ w) : hton w v < 256 ^ w ∧
    leBytes w (hton w v) = (leBytes w v).reverse := by
  rcases hw with rfl | rfl | rfl
  · exact swap8_rev h
  · exact swap16_rev h
  · exact swap64_rev h

theorem swap16_mod (v : Nat) : swap16 (v % 2 ^ 16) = swap16 v := by
  unfold swap16
  rw [show (0xff : Nat) = 2 ^ 8 - 1 from rfl, Nat.and_two_pow_sub_one_eq_mod,
    Nat.and_two_pow_sub_one_eq_mod, Nat.shiftRight_eq_div_pow, Nat.shiftRight_eq_div_pow,
    show v % 2 ^ 16 % 2 ^ 8 = v % 2 ^ 8 by omega,
    show v % 2 ^ 16 / 2 ^ 8 % 2 ^ 8 = v / 2 ^ 8 % 2 ^ 8 by omega]

theorem swap64_mod (v : Nat) : swap64 (v % 2 ^ 64) = swap64 v := by
  unfold swap64
  rw [show (0xffffffff : Nat) = 2 ^ 32 - 1 from rfl, Nat.and_two_pow_sub_one_eq_mod,
    Nat.and_two_pow_sub_one_eq_mod, Nat.shiftRight_eq_div_pow, Nat.shiftRight_eq_div_pow,
    show v % 2 ^ 64 % 2 ^ 32 = v % 2 ^ 32 by omega,
    show v % 2 ^ 64 / 2 ^ 32 % 2 ^ 32 = v / 2 ^ 32 % 2 ^ 32 by omega]

theorem hton8 (v : Nat) : hton 8 v = swap64 v := rfl

theorem hton_mod {w : Nat} (hw : Wd w) (v : Nat) :
    leBytes w (hton w v) = leBytes w (hton w (v % 256 ^ w)) := by
  rcases hw with rfl | rfl | rfl
  · exact (leBytes_mod 1 v).symm
  · rw [show hton 2 v = swap16 v from rfl, show hton 2 (v % 256 ^ 2) = swap16 (v % 2 ^ 16) from rfl,
      swap16_mod]
  · rw [hton8, hton8, show (256 ^ 8 : Nat) = 2 ^ 64 by decide, swap64_mod]

theorem big_mod (w v : Nat) : big w (v % 256 ^ w) = big w v := by
  rw [big_eq, big_eq, leBytes_mod]

theorem write_big {w : Nat} (hw : Wd w) (v : Nat) : leBytes w (hton w v) = big w v := by
  rw [hton_mod hw, (hton_rev hw (Nat.mod_lt _ (Nat.pow_pos (by decide)))).2, ← big_eq, big_mod]

/-- Reading back. -/
theorem hton_big {w v : Nat} (hw : Wd w) (h : v < 256 ^ w) : hton w (ofLe (big w v)) = v := by
  have hb : ∀ b ∈ big w v, b < 256 := by rw [big_eq]; exact mem_reverse_lt (leBytes_lt w v)
  have hlt := ofLe_lt _ hb
  rw [big_length] at hlt
  obtain ⟨h1, h2⟩ := hton_rev hw hlt
  have h3 := leBytes_ofLe _ hb
  rw [big_length] at h3
  rw [h3, big_eq, List.reverse_reverse] at h2
  have h4 := ofLe_leBytes w (hton w (ofLe (big w v)))
  rw [Nat.mod_eq_of_lt h1] at h4
  rw [← h4, big_eq, h2, ofLe_leBytes, Nat.mod_eq_of_lt h]

theorem hton_big' {w : Nat} (hw : Wd w) (v : Nat) : hton w (ofLe (big w v)) = v % 256 ^ w := by
  rw [← big_mod, hton_big hw (Nat.mod_lt _ (Nat.pow_pos (by decide)))]

/-! ## Numbers -/

theorem writeU64_eq (os : List Nat) (v : Nat) : writeU64 os v = os ++ big 8 v := by
  unfold writeU64; rw [write_big (Or.inr (Or.inr rfl))]

theorem readU64_ok {v : Nat} (rest : List Nat) (h : v < 256 ^ 8) :
    readU64 ⟨big 8 v ++ rest, false⟩ = ok (v, ⟨rest, false⟩) := by
  have hl : (big 8 v).length = 8 := big_length 8 v
  unfold readU64 IStream.read
  simp only [List.length_replicate, Bool.false_eq_true, if_false]
  rw [List.take_left' hl, List.drop_left' hl, hl]
  simp [hton_big (Or.inr (Or.inr rfl)) h]

theorem readU64_short {d : List Nat} (h : d.length < 8) : readU64 ⟨d, false⟩ = ub .uninit := by
  unfold readU64 IStream.read
  simp only [List.length_replicate, Bool.false_eq_true, if_false]
  rw [if_pos]
  simp only [List.length_take, decide_eq_true_eq]
  omega

/-! ## Arrays -/

/-- `w` bytes from `a` on, zeros past the end. -/
def pad (d : List Nat) (a w : Nat) : List Nat := (List.range w).map fun j => d.getD (a + j) 0

theorem pad_mid {x y z : List Nat} {a w : Nat} (hx : x.length = a) (hy : y.length = w) :
    pad (x ++ (y ++ z)) a w = y := by
  apply List.ext_getElem
  · simp [pad, hy]
  · intro j h1 h2
    simp only [pad, List.getElem_map, List.getElem_range, List.getD_eq_getElem?_getD]
    rw [List.getElem?_append_right (by omega), show a + j - x.length = j by omega,
      List.getElem?_append_left h2, List.getElem?_eq_getElem h2]
    rfl

theorem pad_past {d : List Nat} {a w : Nat} (h : d.length ≤ a) : pad d a w = List.replicate w 0 := by
  apply List.ext_getElem
  · simp [pad]
  · intro j h1 h2
    simp only [pad, List.getElem_map, List.getElem_range, List.getD_eq_getElem?_getD,
      List.getElem_replicate]
    rw [List.getElem?_eq_none (by omega)]
    rfl

theorem pad_take (d : List Nat) (a w : Nat) :
    (d.drop a).take w ++ (List.replicate w 0).drop ((d.drop a).take w).length = pad d a w := by
  apply List.ext_getElem
  · simp only [List.length_append, List.length_take, List.length_drop, List.length_replicate, pad,
      List.length_map, List.length_range]
    omega
  · intro j h1 h2
    simp only [pad, List.length_map, List.length_range] at h2
    simp only [pad, List.getElem_map, List.getElem_range, List.getD_eq_getElem?_getD]
    by_cases hj : a + j < d.length
    · rw [List.getElem_append_left (by simp; omega), List.getElem?_eq_getElem hj]
      simp
    · rw [List.getElem_append_right (by simp; omega), List.getElem?_eq_none (by omega)]
      simp

theorem leBytes_zero (w : Nat) : leBytes w 0 = List.replicate w 0 := by
  induction w with
  | zero => rfl
  | succ w ih => rw [leBytes, List.replicate_succ, ← ih]

theorem daReadLoop {w n : Nat} (d : List Nat) : ∃ t : Vec Nat,
    forN n (daReadStep w) (words n, ⟨d, false⟩) =
      ok (t, ⟨d.drop (n * w), decide (d.length < n * w)⟩) ∧ t.len = n ∧
      (∀ i, i < n → t.f i = hton w (ofLe (pad d (i * w) w))) ∧ ∀ i, n ≤ i → t.f i = 0 := by
  obtain ⟨⟨t, s⟩, e, h1, h2, h3, h4⟩ := forN_inv (body := daReadStep w)
    (fun i (p : Vec Nat × IStream) => p.2 = ⟨d.drop (i * w), decide (d.length < i * w)⟩ ∧
      p.1.len = n ∧ (∀ j, j < i → p.1.f j = hton w (ofLe (pad d (j * w) w))) ∧
      ∀ j, i ≤ j → p.1.f j = 0) n (words n, ⟨d, false⟩)
    ⟨by simp, rfl, fun _ h => absurd h (by omega), fun _ _ => rfl⟩
    (fun i p hi hp => by
      obtain ⟨t, s⟩ := p
      obtain ⟨hs, hl, hd, hz⟩ := hp
      simp only at hs hl hd hz
      unfold daReadStep
      simp only
      rw [Vec.get_ok (by omega), ok_bind, hz i (Nat.le_refl _), leBytes_zero,
        Vec.set_ok _ (by omega), ok_bind, Vec.get_ok (by simp only; omega), ok_bind,
        Vec.set_ok _ (by simp only; omega), ok_bind]
      have key : s.read (List.replicate w 0) = (pad d (i * w) w,
          ⟨d.drop ((i + 1) * w), decide (d.length < (i + 1) * w)⟩) := by
        rw [hs]
        unfold IStream.read
        simp only [List.length_replicate]
        have e1 : (i + 1) * w = i * w + w := by rw [Nat.add_mul, Nat.one_mul]
        by_cases hf : d.length < i * w
        · rw [if_pos (by simpa using hf), pad_past (by omega)]
          have a1 : d.drop (i * w) = [] := List.drop_eq_nil_of_le (by omega)
          have a2 : d.drop ((i + 1) * w) = [] := List.drop_eq_nil_of_le (by omega)
          simp only [a1, a2, Prod.mk.injEq, true_and, IStream.mk.injEq]
          rw [decide_eq_true hf, decide_eq_true (by omega)]
        · rw [if_neg (by simpa using hf), pad_take]
          simp only [List.drop_drop, List.length_take, List.length_drop, Prod.mk.injEq, true_and,
            IStream.mk.injEq, ← e1]
          apply decide_eq_decide.2
          omega
      refine ⟨_, rfl, ?_, ?_, ?_, ?_⟩
      · simp only [key]
      · simp only; exact hl
      · intro j hj
        simp only
        by_cases hji : j = i
        · subst hji; simp [key]
        · simp only [if_neg hji]; exact hd j (by omega)
      · intro j hj
        simp only
        simp only [if_neg (show ¬ j = i by omega)]
        exact hz j (by omega))
  simp only at h1 h2 h3 h4
  exact ⟨t, by rw [e, h1], h2, h3, h4⟩

theorem bigs_length (w : Nat) (l : List Nat) : (bigs w l).length = l.length * w := by
  induction l with
  | nil => simp [bigs]
  | cons a l ih =>
    unfold bigs at *
    rw [List.flatMap_cons, List.length_append, ih, big_length, List.length_cons, Nat.add_mul,
      Nat.one_mul, Nat.add_comm]

theorem bigs_split {w : Nat} {l : List Nat} {i : Nat} (h : i < l.length) :
    bigs w l = bigs w (l.take i) ++ (big w l[i] ++ bigs w (l.drop (i + 1))) := by
  unfold bigs
  rw [← List.flatMap_cons, ← List.flatMap_append, ← List.drop_eq_getElem_cons h,
    List.take_append_drop]

theorem toList_length (t : Vec Nat) : t.toList.length = t.len := by simp [Vec.toList]

theorem daWrite_ok {w : Nat} (hw : Wd w) (t : Vec Nat) (os : List Nat) :
    daWrite w t os = ok (os ++ counted w t.toList) := by
  unfold daWrite
  obtain ⟨s, e, h⟩ := forN_inv (body := fun i os => do
      let x ← t.get i
      ok (os ++ leBytes w (hton w x)))
    (fun i s => s = os ++ (big 8 t.len ++ bigs w ((List.range i).map t.f))) t.len
    (writeU64 os t.len) (by rw [writeU64_eq]; simp [bigs])
    (fun i s hi hs => by
      refine ⟨_, by rw [Vec.get_ok hi, ok_bind], ?_⟩
      rw [hs, write_big hw, List.range_succ, List.map_append]
      simp [bigs])
  rw [e, h]
  simp only [counted, toList_length]
  rfl

theorem daRead_ok {w : Nat} (hw : Wd w) {t : Vec Nat} (ht : t.len < 256 ^ 8) (rest : List Nat) :
    ∃ t' : Vec Nat, daRead w ⟨counted w t.toList ++ rest, false⟩ = ok (t', ⟨rest, false⟩) ∧
      t'.len = t.len ∧ ∀ i, i < t.len → t'.f i = t.f i % 256 ^ w := by
  unfold daRead counted
  rw [toList_length, List.append_assoc, readU64_ok _ ht, ok_bind]
  have hb : (bigs w t.toList).length = t.len * w := by rw [bigs_length, toList_length]
  obtain ⟨t', e, h1, h2, -⟩ := daReadLoop (w := w) (n := t.len) (bigs w t.toList ++ rest)
  refine ⟨t', ?_, h1, fun i hi => ?_⟩
  · simp only
    rw [e, List.drop_left' hb, decide_eq_false (by rw [List.length_append]; omega)]
  · have hi' : i < t.toList.length := by rw [toList_length]; exact hi
    rw [h2 i hi, bigs_split hi', List.append_assoc, List.append_assoc,
      pad_mid (by rw [bigs_length, List.length_take]; congr 1; omega) (big_length _ _), hton_big' hw]
    simp [Vec.toList]

/-- Reading a stream that ends early, after the count. -/
theorem daRead_cut {w : Nat} {n : Nat} (hn : n < 256 ^ 8) (d : List Nat) :
    ∃ t : Vec Nat, daRead w ⟨big 8 n ++ d, false⟩ =
        ok (t, ⟨d.drop (n * w), decide (d.length < n * w)⟩) ∧ t.len = n ∧
      (∀ i, i < n → t.f i = hton w (ofLe (pad d (i * w) w))) ∧ ∀ i, n ≤ i → t.f i = 0 := by
  unfold daRead
  rw [readU64_ok _ hn, ok_bind]
  exact daReadLoop d

end MRS.Hft
