import Verif.Model.Mranisz.Threads
import Verif.Proofs.Mranisz.Link

/-!
# Queries as programs over the members

Run alone, the program of a query ends like the function of `Model/Mranisz/Rank.lean` or
`Model/Mranisz/Select.lean`, whatever the members hold at the start.
-/

set_option autoImplicit false

namespace MRS.Mran
open Outcome Prog

namespace Prog
variable {α β γ : Type}

/-- Running alone to the end: outcome and members. -/
def solo : Prog α → Cells → Outcome α × Cells
  | done o, m => (o, m)
  | get l k, m => (k (m l)).solo m
  | put l v k, m => k.solo (cset m l v)

/-- Outcome when run alone. -/
def val (a : Prog α) (m : Cells) : Outcome α := (a.solo m).1

theorem assoc (a : Prog α) (f : α → Prog β) (g : β → Prog γ) :
    (a >>= f) >>= g = a >>= fun x => f x >>= g := by
  show (a.bind f).bind g = a.bind fun x => (f x).bind g
  induction a with
  | done o => cases o <;> rfl
  | get l k ih => exact congrArg (get l) (funext ih)
  | put l v k ih => exact congrArg (put l v) ih

theorem val_done (o : Outcome α) (m : Cells) : (done o).val m = o := rfl

theorem val_lift (o : Outcome α) (f : α → Prog β) (m : Cells) :
    (done o >>= f).val m = o >>= fun a => (f a).val m := by cases o <;> rfl

theorem val_getP (l : Cell) (f : Nat → Prog β) (m : Cells) : (getP l >>= f).val m = (f (m l)).val m := rfl

theorem val_setP (l : Cell) (v : Nat) (f : Unit → Prog β) (m : Cells) :
    (setP l v >>= f).val m = (f ()).val (cset m l v) := rfl

theorem lift_ok (a : α) (f : α → Prog β) : (done (ok a) >>= f) = f a := rfl

theorem ite_bind (c : Prop) [Decidable c] (a b : Prog α) (f : α → Prog β) :
    ((if c then a else b) >>= f) = if c then a >>= f else b >>= f := by split <;> rfl

theorem val_ite (c : Prop) [Decidable c] (a b : Prog α) (m : Cells) :
    (if c then a else b).val m = if c then a.val m else b.val m := by split <;> rfl

end Prog

theorem oite_bind {α β : Type} (c : Prop) [Decidable c] (a b : Outcome α) (f : α → Outcome β) :
    ((if c then a else b) >>= f) = if c then a >>= f else b >>= f := by split <;> rfl

theorem cset_same (m : Cells) (l : Cell) (v : Nat) : cset m l v l = v := if_pos rfl

theorem cset_other (m : Cells) {l l' : Cell} (v : Nat) (h : l' ≠ l) : cset m l v l' = m l' := if_neg h

theorem cset_id (m : Cells) (l : Cell) : cset m l (m l) = m := by
  funext l'
  unfold cset
  split
  · rename_i h; rw [h]
  · rfl

theorem cset_cset (m : Cells) (l : Cell) (v w : Nat) : cset (cset m l v) l w = cset m l w := by
  funext l'
  unfold cset
  split <;> rfl

theorem two_ne (o : Nat) : (⟨o, true⟩ : Cell) ≠ ⟨o, false⟩ := fun h => by cases h
theorem one_ne (o : Nat) : (⟨o, false⟩ : Cell) ≠ ⟨o, true⟩ := fun h => by cases h

/-! ## rank -/

theorem loopA_val {β : Type} (bits : Vec (Option Word)) (o : Nat) (m : Cells) (n : Nat) :
    ∀ (a r : Nat) (f : Nat → Prog β),
    (loop a n (fun k r => do
      let p ← getP ⟨o, false⟩
      let w ← done (uget bits (p + k))
      done (ok (r + popcnt w))) r >>= f).val m =
    forFrom a n (fun k r => do
      let w ← uget bits (m ⟨o, false⟩ + k)
      ok (r + popcnt w)) r >>= fun r => (f r).val m := by
  induction n with
  | zero => intro a r f; rfl
  | succ n ih =>
    intro a r f
    unfold loop forFrom
    rw [assoc, assoc, val_getP, assoc, val_lift]
    simp only [lift_ok, ih]
    cases uget bits (m ⟨o, false⟩ + a) <;> rfl

theorem inBlockA_val (bits : Vec (Option Word)) (o rank i : Nat) (m : Cells) :
    (inBlockA bits o rank i).val m = inBlock bits (m ⟨o, false⟩) rank i := by
  unfold inBlockA inBlock
  rw [loopA_val]
  simp only [val_getP, val_lift, val_done]
  rfl

theorem tailA_val (bits : Vec (Option Word)) (o i : Nat) (h : Head) (m : Cells) :
    (tailA bits o i h).val m = match h with
      | .known r => ok r
      | .block rank => inBlock bits (m ⟨o, false⟩) rank i := by
  cases h with
  | known r => rfl
  | block rank => exact inBlockA_val _ _ _ _ _

theorem rankStdA_val (o : Nat) (x : Basic) (i : Nat) (m : Cells) : (rankStdA o x i).val m = rankStd x i := by
  unfold rankStdA headStd rankStd
  simp only [assoc, val_lift, val_setP, ite_bind, val_ite, val_done, tailA_val, cset_same, lift_ok]

theorem rankCFA_val (o : Nat) (x : CF) (i : Nat) (m : Cells) : (rankCFA o x i).val m = rankCF x i := by
  unfold rankCFA headCF rankCF
  simp only [assoc, val_lift, val_setP, val_getP, ite_bind, val_ite, val_done, tailA_val, cset_same, lift_ok]

theorem rankBchA_val (o : Nat) (x : Basic) (i : Nat) (m : Cells) : (rankBchA o x i).val m = rankBch x i := by
  unfold rankBchA headBch rankBch at2 slot1A slot2A
  simp only [assoc, val_lift, val_setP, val_getP, ite_bind, val_ite, val_done, tailA_val, cset_same, lift_ok,
    oite_bind, bind_assoc', ok_bind, cset_other _ _ (two_ne o), Nat.add_zero]
  cases h : uget x.ranks (19 * (i / 512 / 64)) with
  | ok b => simp only [ok_bind]
  | ub e => rfl
  | abort => rfl

/-! ## select -/

theorem wordLoopA_val {β : Type} (strict : Bool) (bits : Vec (Option Byte)) (o n : Nat) :
    ∀ (i select : Nat) (f : Nat × Nat → Prog β) (m : Cells),
    (wordLoopA strict bits o n i select >>= f).val m =
    wordLoop strict bits n i select (m ⟨o, false⟩) >>= fun z => (f (z.1, z.2.1)).val (cset m ⟨o, false⟩ z.2.2) := by
  induction n with
  | zero =>
    intro i select f m
    show (f (i, select)).val m = (f (i, select)).val (cset m _ (m _))
    rw [cset_id]
  | succ n ih =>
    intro i select f m
    unfold wordLoopA wordLoop
    simp only [assoc, val_lift, val_setP, val_getP, ite_bind, val_ite, lift_ok, ih, cset_same, cset_cset,
      oite_bind, bind_assoc', ok_bind, cset_id]

theorem byteLoopA_val {β : Type} (bits : Vec (Option Byte)) (o n : Nat) :
    ∀ (i select : Nat) (f : Nat × Nat → Prog β) (m : Cells),
    (byteLoopA bits o n i select >>= f).val m =
    byteLoop bits n i select (m ⟨o, false⟩) >>= fun z => (f (z.1, z.2.1)).val (cset m ⟨o, false⟩ z.2.2) := by
  induction n with
  | zero => intro i select f m; rfl
  | succ n ih =>
    intro i select f m
    unfold byteLoopA byteLoop
    simp only [assoc, val_lift, val_setP, val_getP, ite_bind, val_ite, lift_ok, ih, cset_same, cset_cset,
      oite_bind, bind_assoc', ok_bind, cset_id]

theorem bitLoopA_val (bits : Vec (Option Byte)) (o select : Nat) (m : Cells) (n : Nat) : ∀ (j i : Nat) (b : Byte),
    uget bits (m ⟨o, false⟩) = ok b →
    (bitLoopA bits o select n j i).val m = ok (bitLoop b select n j i) := by
  induction n with
  | zero => intro j i b _; rfl
  | succ n ih =>
    intro j i b h
    unfold bitLoopA bitLoop
    simp only [val_lift, val_getP, val_ite, h, ok_bind, ih _ _ _ h, val_done]
    split
    · split <;> rfl
    · rfl

theorem bitLoopA_val_bad (bits : Vec (Option Byte)) (o select : Nat) (m : Cells) (j i : Nat) :
    (bitLoopA bits o select 8 j i).val m = (uget bits (m ⟨o, false⟩) >>= fun b => ok (bitLoop b select 8 j i)) := by
  cases h : uget bits (m ⟨o, false⟩) with
  | ok b => exact bitLoopA_val _ _ _ _ _ _ _ _ h
  | ub e => unfold bitLoopA; rw [val_getP, val_lift, h]; rfl
  | abort => unfold bitLoopA; rw [val_getP, val_lift, h]; rfl

theorem scanBlockA_val (strict : Bool) (bits : Vec (Option Byte)) (o off diff i select : Nat) (m : Cells) :
    (scanBlockA strict bits o off diff i select).val m = scanBlock strict bits off diff i select := by
  unfold scanBlockA scanBlock
  rw [val_setP, wordLoopA_val]
  simp only [byteLoopA_val, cset_same, bitLoopA_val_bad]

theorem selectStdA_val (strict : Bool) (L TH o : Nat) (x : Select) (i : Nat) (m : Cells) :
    (selectStdA strict L TH o x i).val m = selectStd strict L TH x i := by
  unfold selectStdA selectStd
  simp only [assoc, val_lift, val_setP, val_getP, ite_bind, val_ite, val_done, lift_ok, scanBlockA_val]

theorem selectBchA_val (strict : Bool) (L TH o : Nat) (x : Select) (i : Nat) (m : Cells) :
    (selectBchA strict L TH o x i).val m = selectBch strict L TH x i := by
  unfold selectBchA selectBch at2 slot1A
  simp only [assoc, val_lift, val_setP, val_getP, ite_bind, val_ite, val_done, lift_ok, scanBlockA_val,
    cset_same, oite_bind, bind_assoc', ok_bind]

/-- Leaving out the members loses nothing as long as the query runs alone. -/
theorem Query.act_val (o : Nat) (q : Query) (m : Cells) : (q.act o).val m = q.value := by
  cases q with
  | rankStd x i => exact rankStdA_val _ _ _ _
  | rankBch x i => exact rankBchA_val _ _ _ _
  | rankCF x i => exact rankCFA_val _ _ _ _
  | selStd L TH x i => exact selectStdA_val _ _ _ _ _ _ _
  | selBch L TH x i => exact selectBchA_val _ _ _ _ _ _ _

end MRS.Mran
