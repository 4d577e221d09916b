import Verif.Proofs.Hft.Fenwick

/-! # The two constructors -/

set_option autoImplicit false

namespace MRS.Hft
open Outcome

variable {T : Type}

theorem stride_inv {size m : Nat} {body : Nat → T → Outcome T} (P : Nat → T → Prop) (a : Nat)
    (hm : 0 < m)
    (hs : ∀ s t, a + m * s ≤ size → P (a + m * s) t →
      ∃ t', body (a + m * s) t = ok t' ∧ P (a + m * (s + 1)) t') :
    ∀ (fuel s : Nat) (t : T), size + 2 ≤ fuel + (a + m * s) → 0 < fuel → P (a + m * s) t →
      ∃ t' s', stride size m body fuel (a + m * s) t = ok t' ∧ size < a + m * s' ∧
        P (a + m * s') t' := by
  intro fuel
  induction fuel with
  | zero => intro s t _ h _; omega
  | succ fuel ih =>
    intro s t hf _ hP
    unfold stride
    by_cases hc : a + m * s ≤ size
    · rw [if_pos hc]
      obtain ⟨t1, e1, p1⟩ := hs s t hc hP
      rw [e1, ok_bind]
      have e2 : a + m * s + m = a + m * (s + 1) := by rw [Nat.mul_add, Nat.mul_one]; omega
      rw [e2]
      exact ih (s + 1) t1 (by rw [Nat.mul_add, Nat.mul_one]; omega) (by omega) p1
    · rw [if_neg hc]
      exact ⟨t, s, rfl, by omega, hP⟩

/-- What a node holds after the stages `m = 2, 4, .., 2^κ`. -/
def stage (P : Nat → Int) (κ x : Nat) : Int := P x - P (x - 2 ^ min (tz x) κ)

theorem stage_top (P : Nat → Int) {κ x : Nat} (h : tz x ≤ κ) : stage P κ x = nodeInt P x := by
  unfold stage nodeInt; rw [Nat.min_eq_left h]

theorem doubling_ok {n : Nat} {w : Nat → Nat} {R : T → (Nat → Nat) → Prop}
    {acc : Nat → Nat → T → Outcome T} {P : Nat → Int}
    (hacc : ∀ {t v i r}, R t v → r < i → 0 < r → i ≤ n → add64 (v i) (v r) < 2 ^ w i →
      ∃ t', acc i r t = ok t' ∧ R t' (upd v i (add64 (v i) (v r))))
    (hn : n < 2 ^ 62)
    (hw : ∀ i κ, 0 < i → i ≤ n → u64 (stage P κ i) < 2 ^ w i) :
    ∀ (fuel κ : Nat) (t : T) (v : Nat → Nat), 64 ≤ fuel + κ → κ ≤ 63 → R t v →
      (∀ i, 0 < i → i ≤ n → v i = u64 (stage P κ i)) →
      ∃ t', doubling n (fun m t => stride n m (fun idx t => acc idx (idx - m / 2) t) (n + 1) m t)
        fuel (2 ^ (κ + 1)) t = ok t' ∧ Holds n R t' P := by
  intro fuel
  induction fuel with
  | zero => intro κ t v h1 h2; omega
  | succ fuel ih =>
    intro κ t v hf hκ hR hv
    unfold doubling
    have hp := Nat.two_pow_pos κ
    by_cases hc : 2 ^ (κ + 1) ≤ n
    · rw [if_pos hc]
      have hκ2 : κ + 1 < 62 := by
        by_cases h : κ + 1 < 62
        · exact h
        · have : 2 ^ 62 ≤ 2 ^ (κ + 1) := Nat.pow_le_pow_right (by decide) (by omega)
          omega
      have he : 2 ^ (κ + 1) / 2 = 2 ^ κ := by rw [Nat.pow_succ]; omega
      have hdbl : 2 ^ (κ + 1) = 2 ^ κ + 2 ^ κ := by rw [Nat.pow_succ]; omega
      have key := stride_inv (T := T) (size := n) (m := 2 ^ (κ + 1))
        (body := fun idx t => acc idx (idx - 2 ^ (κ + 1) / 2) t)
        (fun c t => ∃ v, R t v ∧ ∀ i, 0 < i → i ≤ n →
          v i = if i < c then u64 (stage P (κ + 1) i) else u64 (stage P κ i))
        (2 ^ (κ + 1)) (Nat.two_pow_pos _)
        (by
          intro s t hle ⟨v, hR, hv⟩
          have hx : 2 ^ (κ + 1) + 2 ^ (κ + 1) * s = 2 ^ (κ + 1) * (s + 1) := by
            rw [Nat.mul_add, Nat.mul_one]; omega
          have hx2 : 2 ^ (κ + 1) + 2 ^ (κ + 1) * (s + 1) = 2 ^ (κ + 1) * (s + 1) + 2 ^ (κ + 1) := by
            omega
          rw [hx] at hle hv ⊢
          rw [hx2, he]
          have hge : 2 ^ (κ + 1) ≤ 2 ^ (κ + 1) * (s + 1) := Nat.le_mul_of_pos_right _ (by omega)
          have hr : 2 ^ (κ + 1) * (s + 1) - 2 ^ κ = 2 ^ κ * (2 * s + 1) := by
            rw [node_eq, Nat.mul_add, Nat.mul_one]; omega
          rw [hr]
          have hrlt : 2 ^ κ * (2 * s + 1) < 2 ^ (κ + 1) * (s + 1) := by omega
          have hrpos := node_pos κ s
          have htz : κ + 1 ≤ tz (2 ^ (κ + 1) * (s + 1)) := by
            obtain ⟨h, k, hh, hk, htz⟩ := decomp (x := 2 ^ (κ + 1) * (s + 1)) (by omega)
              (by simp only [W64]; omega)
            rw [htz]
            exact dvd_tz (k := k) (by rw [← hk]; exact ⟨s + 1, rfl⟩)
          have hvi : v (2 ^ (κ + 1) * (s + 1)) =
              u64 (P (2 ^ (κ + 1) * (s + 1)) - P (2 ^ κ * (2 * s + 1))) := by
            rw [hv _ (by omega) hle, if_neg (by omega)]
            unfold stage
            rw [Nat.min_eq_right (by omega), hr]
          have hvr : v (2 ^ κ * (2 * s + 1)) =
              u64 (P (2 ^ κ * (2 * s + 1)) - P (2 ^ (κ + 1) * s)) := by
            rw [hv _ hrpos (by omega), if_pos hrlt]
            unfold stage
            rw [tz_eq (by omega), Nat.min_eq_left (by omega)]
            congr 3
            rw [node_eq]; omega
          have hsum : add64 (v (2 ^ (κ + 1) * (s + 1))) (v (2 ^ κ * (2 * s + 1))) =
              u64 (stage P (κ + 1) (2 ^ (κ + 1) * (s + 1))) := by
            rw [hvi, hvr, u64_add]
            unfold stage
            rw [Nat.min_eq_right htz]
            have : 2 ^ (κ + 1) * (s + 1) - 2 ^ (κ + 1) = 2 ^ (κ + 1) * s := by
              rw [Nat.mul_add, Nat.mul_one]; omega
            rw [this]
            congr 1
            omega
          obtain ⟨t1, e1, r1⟩ := hacc hR hrlt hrpos hle
            (by rw [hsum]; exact hw _ _ (by omega) hle)
          refine ⟨t1, e1, _, r1, ?_⟩
          intro i h1 h2
          unfold upd
          by_cases hic : i = 2 ^ (κ + 1) * (s + 1)
          · subst hic
            rw [if_pos rfl, if_pos (by omega), hsum]
          · rw [if_neg hic, hv i h1 h2]
            by_cases hlt : i < 2 ^ (κ + 1) * (s + 1)
            · rw [if_pos hlt, if_pos (by omega)]
            · rw [if_neg hlt]
              by_cases hlt2 : i < 2 ^ (κ + 1) * (s + 1) + 2 ^ (κ + 1)
              · rw [if_pos hlt2]
                obtain ⟨h, k, hh, hk, htz⟩ := decomp (x := i) h1 (by simp only [W64]; omega)
                have hsm : tz i ≤ κ := by
                  rw [htz]
                  by_cases hle2 : h ≤ κ
                  · exact hle2
                  · obtain ⟨d, rfl⟩ := Nat.exists_eq_add_of_le (Nat.lt_of_not_le hle2)
                    have hk' : i = 2 ^ (κ + 1) * (2 ^ d * (2 * k + 1)) := by
                      rw [hk, Nat.pow_add 2 (κ + 1), Nat.mul_assoc]
                    have g1 : 2 ^ (κ + 1) * (s + 1) < 2 ^ (κ + 1) * (2 ^ d * (2 * k + 1)) := by omega
                    have g2 : 2 ^ (κ + 1) * (2 ^ d * (2 * k + 1)) < 2 ^ (κ + 1) * (s + 1 + 1) := by
                      rw [Nat.mul_add _ (s + 1)]; omega
                    have := Nat.lt_of_mul_lt_mul_left g1
                    have := Nat.lt_of_mul_lt_mul_left g2
                    omega
                rw [stage_top P hsm, stage_top P (by omega)]
              · rw [if_neg hlt2])
        (n + 1) 0 t (by omega) (by omega)
        ⟨v, hR, fun i h1 h2 => by
          rw [hv i h1 h2]
          by_cases hlt : i < 2 ^ (κ + 1) + 2 ^ (κ + 1) * 0
          · rw [if_pos hlt]
            have hsm : tz i ≤ κ := by
              obtain ⟨h, k, hh, hk, htz⟩ := decomp (x := i) h1 (by simp only [W64]; omega)
              rw [htz]
              by_cases hle2 : h ≤ κ
              · exact hle2
              · have h3 := pow_le_node h k
                have h4 : 2 ^ (κ + 1) ≤ 2 ^ h := Nat.pow_le_pow_right (by decide) (by omega)
                omega
            rw [stage_top P hsm, stage_top P (by omega)]
          · rw [if_neg hlt]⟩
      obtain ⟨t1, s', e1, hgt, v1, r1, hv1⟩ := key
      simp only [Nat.mul_zero, Nat.add_zero] at e1
      rw [e1, ok_bind]
      have e3 : 2 ^ (κ + 1) <<< 1 = 2 ^ (κ + 1 + 1) := by
        rw [Nat.shiftLeft_eq, Nat.pow_succ 2 (κ + 1)]
      rw [e3]
      exact ih (κ + 1) t1 v1 (by omega) (by omega) r1
        (fun i h1 h2 => by rw [hv1 i h1 h2, if_pos (by omega)])
    · rw [if_neg hc]
      refine ⟨t, rfl, v, hR, fun i h1 h2 => ?_⟩
      rw [hv i h1 h2, stage_top]
      obtain ⟨h, k, hh, hk, htz⟩ := decomp (x := i) h1 (by simp only [W64]; omega)
      rw [htz]
      by_cases hle2 : h ≤ κ
      · exact hle2
      · have h3 := pow_le_node h k
        have h4 : 2 ^ (κ + 1) ≤ 2 ^ h := Nat.pow_le_pow_right (by decide) (by omega)
        omega

theorem buildF_ok {n : Nat} {w : Nat → Nat} {R : T → (Nat → Nat) → Prop} {seq : Vec Nat}
    {leaf acc : Nat → Nat → T → Outcome T} {P : Nat → Int} {t0 : T}
    (hleaf : ∀ {t v i x}, R t v → 0 < i → i ≤ n → v i = 0 → x < 2 ^ w i → x < W64 →
      ∃ t', leaf i x t = ok t' ∧ R t' (upd v i x))
    (hacc : ∀ {t v i r}, R t v → r < i → 0 < r → i ≤ n → add64 (v i) (v r) < 2 ^ w i →
      ∃ t', acc i r t = ok t' ∧ R t' (upd v i (add64 (v i) (v r))))
    (hn : n < 2 ^ 62) (hseq : n ≤ seq.len)
    (hP : ∀ i, i < n → u64 (P (i + 1) - P i) = seq.f i)
    (hw : ∀ i κ, 0 < i → i ≤ n → u64 (stage P κ i) < 2 ^ w i)
    (h0 : R t0 (fun _ => 0)) :
    ∃ t, buildF seq n leaf acc t0 = ok t ∧ Holds n R t P := by
  unfold buildF
  obtain ⟨t1, e1, v1, r1, hv1⟩ := forFrom_inv
    (body := fun j t => do
      let v ← seq.get (j - 1)
      leaf j v t)
    (fun j t => ∃ v, R t v ∧ ∀ i, 0 < i → i ≤ n → v i = if i < j then u64 (stage P 0 i) else 0)
    n 1 t0 ⟨_, h0, fun i h1 h2 => by rw [if_neg (by omega)]⟩
    (by
      intro j t h1 h2 ⟨v, hR, hv⟩
      obtain ⟨i, rfl⟩ : ∃ i, j = i + 1 := ⟨j - 1, by omega⟩
      have hst : u64 (stage P 0 (i + 1)) = seq.f i := by
        unfold stage
        rw [Nat.min_zero]
        exact hP i (by omega)
      obtain ⟨t', e', r'⟩ := hleaf (i := i + 1) (x := seq.f i) hR (by omega) (by omega)
        (by rw [hv _ (by omega) (by omega), if_neg (by omega)])
        (by rw [← hst]; exact hw _ _ (by omega) (by omega)) (by rw [← hst]; exact u64_lt _)
      refine ⟨t', ?_, _, r', ?_⟩
      · show (do
          let v ← seq.get (i + 1 - 1)
          leaf (i + 1) v t) = _
        rw [Nat.add_sub_cancel, Vec.get_ok (by omega), ok_bind, e']
      · intro x h3 h4
        unfold upd
        by_cases hx : x = i + 1
        · subst hx
          rw [if_pos rfl, if_pos (by omega), hst]
        · rw [if_neg hx, hv x h3 h4]
          by_cases hlt : x < i + 1
          · rw [if_pos hlt, if_pos (by omega)]
          · rw [if_neg hlt, if_neg (by omega)])
  rw [e1, ok_bind]
  exact doubling_ok hacc hn hw 64 0 t1 v1 (by omega) (by omega) r1
    (fun i h1 h2 => by rw [hv1 i h1 h2, if_pos (by omega)])

/-! ## Level-ordered layout -/

theorem buildL_ok {n L : Nat} {w : Nat → Nat} {R : T → (Nat → Nat) → Prop} {seq : Vec Nat}
    {get : T → Nat → Nat → Outcome Nat} {put : T → Nat → Nat → Nat → Outcome T} {P : Nat → Int}
    {t0 : T}
    (hget : ∀ {t v h k}, R t v → 2 ^ h * (2 * k + 1) ≤ n → get t h k = ok (v (2 ^ h * (2 * k + 1))))
    (hput : ∀ {t v h k x}, R t v → 2 ^ h * (2 * k + 1) ≤ n → v (2 ^ h * (2 * k + 1)) = 0 →
      x < 2 ^ w (2 ^ h * (2 * k + 1)) → x < W64 →
      ∃ t', put t h k x = ok t' ∧ R t' (upd v (2 ^ h * (2 * k + 1)) x))
    (hn : n < 2 ^ 62) (hseq : n ≤ seq.len) (hL : n < 2 ^ (L - 1))
    (hP : ∀ i, i < n → u64 (P (i + 1) - P i) = seq.f i)
    (hw : ∀ i, 0 < i → i ≤ n → u64 (nodeInt P i) < 2 ^ w i)
    (h0 : R t0 (fun _ => 0)) :
    ∃ t, buildL seq n L get put t0 = ok t ∧ Holds n R t P := by
  unfold buildL
  obtain ⟨t1, e1, v1, r1, hv1⟩ := forN_inv
    (body := fun l t =>
      stride n (1 <<< (l + 1)) (fun node t => do
        let v0 ← seq.get (node - 1)
        let r ← forN l (fun j (p : Nat × Nat) => do
          let v ← get t j (p.1 >>> 1)
          ok (p.1 >>> 1, add64 p.2 v)) (node - 1, v0)
        put t l (node >>> (l + 1)) r.2) (n + 1) (1 <<< l) t)
    (fun l t => ∃ v, R t v ∧ ∀ i, 0 < i → i ≤ n → v i = if tz i < l then u64 (nodeInt P i) else 0)
    (L - 1) t0 ⟨_, h0, fun i h1 h2 => by rw [if_neg (by omega)]⟩
    (by
      intro l t hl ⟨v, hR, hv⟩
      have hpl := Nat.two_pow_pos l
      have hdbl : 2 ^ (l + 1) = 2 ^ l + 2 ^ l := by rw [Nat.pow_succ]; omega
      have s1 : 1 <<< (l + 1) = 2 ^ (l + 1) := by rw [Nat.shiftLeft_eq]; omega
      have s2 : 1 <<< l = 2 ^ l := by rw [Nat.shiftLeft_eq]; omega
      rw [s1, s2]
      have key := stride_inv (T := T) (size := n) (m := 2 ^ (l + 1))
        (body := fun node t => do
          let v0 ← seq.get (node - 1)
          let r ← forN l (fun j (p : Nat × Nat) => do
            let v ← get t j (p.1 >>> 1)
            ok (p.1 >>> 1, add64 p.2 v)) (node - 1, v0)
          put t l (node >>> (l + 1)) r.2)
        (fun c t => ∃ v, R t v ∧ ∀ i, 0 < i → i ≤ n →
          v i = if tz i < l ∨ (tz i = l ∧ i < c) then u64 (nodeInt P i) else 0)
        (2 ^ l) (Nat.two_pow_pos _)
        (by
          intro k t hle ⟨v, hR, hv⟩
          have hx : 2 ^ l + 2 ^ (l + 1) * k = 2 ^ l * (2 * k + 1) := by rw [node_eq]; omega
          have hx2 : 2 ^ l + 2 ^ (l + 1) * (k + 1) = 2 ^ l * (2 * k + 1) + 2 ^ (l + 1) := by
            rw [node_eq, Nat.mul_add, Nat.mul_one]; omega
          rw [hx] at hle hv ⊢
          rw [hx2]
          have hpos := node_pos l k
          have hl64 : l < 64 := node_lt (h := l) (k := k) (by simp only [W64]; omega)
          -- the inner loop
          obtain ⟨r, er, hr1, hr2⟩ := forN_inv
            (body := fun j (p : Nat × Nat) => do
              let v ← get t j (p.1 >>> 1)
              ok (p.1 >>> 1, add64 p.2 v))
            (fun j (p : Nat × Nat) => p.1 = (2 ^ l * (2 * k + 1) - 1) >>> j ∧
              p.2 = u64 (P (2 ^ l * (2 * k + 1)) - P (2 ^ l * (2 * k + 1) - 2 ^ j)))
            l (2 ^ l * (2 * k + 1) - 1, seq.f (2 ^ l * (2 * k + 1) - 1))
            ⟨by simp, by
              have := hP (2 ^ l * (2 * k + 1) - 1) (by omega)
              rw [Nat.sub_add_cancel hpos] at this
              simp only [Nat.pow_zero]
              rw [this]⟩
            (by
              intro j p hj ⟨hp1, hp2⟩
              obtain ⟨d, hd⟩ : ∃ d, l = j + 1 + d := ⟨l - j - 1, by omega⟩
              have hpj := Nat.two_pow_pos j
              have hpos2 := node_pos d k
              have hN : 2 ^ l * (2 * k + 1) = 2 ^ (j + 1) * (2 ^ d * (2 * k + 1)) := by
                rw [hd, Nat.pow_add, Nat.mul_assoc]
              obtain ⟨q, hq⟩ : ∃ q, 2 ^ d * (2 * k + 1) = q + 1 := ⟨_, (Nat.sub_add_cancel hpos2).symm⟩
              rw [hq] at hN
              have hsh : (2 ^ l * (2 * k + 1) - 1) >>> (j + 1) = q := by
                rw [Nat.shiftRight_eq_div_pow, hN, div_pred_mul (Nat.two_pow_pos _)]
              have hsh2 : p.1 >>> 1 = q := by
                rw [hp1, ← Nat.shiftRight_add, hsh]
              have hy : 2 ^ l * (2 * k + 1) - 2 ^ j = 2 ^ j * (2 * q + 1) := by
                rw [hN, node_eq, Nat.mul_add, Nat.mul_one, Nat.pow_succ]; omega
              have hylo : 2 ^ l * (2 * k + 1) - 2 ^ (j + 1) = 2 ^ (j + 1) * q := by
                rw [hN, Nat.mul_add, Nat.mul_one]; omega
              have hyle : 2 ^ j * (2 * q + 1) ≤ n := by omega
              refine ⟨(q, add64 p.2 (v (2 ^ j * (2 * q + 1)))), ?_, hsh.symm, ?_⟩
              · show (do
                  let v ← get t j (p.1 >>> 1)
                  ok (p.1 >>> 1, add64 p.2 v)) = _
                rw [hsh2, hget hR hyle, ok_bind]
              · show add64 p.2 _ = _
                rw [hv _ (node_pos j q) hyle, tz_eq (by omega), if_pos (Or.inl hj), hp2, u64_add,
                  nodeInt_eq P (by omega), hy, hylo]
                congr 1
                omega)
          have hlo : 2 ^ l * (2 * k + 1) - 2 ^ l = 2 ^ (l + 1) * k := by rw [node_eq]; omega
          have hr2' : r.2 = u64 (nodeInt P (2 ^ l * (2 * k + 1))) := by
            rw [hr2, nodeInt_eq P hl64, hlo]
          obtain ⟨t', e', r'⟩ := hput (x := r.2) hR hle
            (by rw [hv _ hpos hle, tz_eq hl64, if_neg (by omega)])
            (by rw [hr2']; exact hw _ hpos hle) (by rw [hr2']; exact u64_lt _)
          have hsh3 : (2 ^ l * (2 * k + 1)) >>> (l + 1) = k := by
            rw [Nat.shiftRight_eq_div_pow, node_eq, Nat.mul_add_div (Nat.two_pow_pos _),
              Nat.div_eq_of_lt (by omega), Nat.add_zero]
          refine ⟨t', ?_, _, r', ?_⟩
          · show (do
              let v0 ← seq.get (2 ^ l * (2 * k + 1) - 1)
              let r ← forN l (fun j (p : Nat × Nat) => do
                let v ← get t j (p.1 >>> 1)
                ok (p.1 >>> 1, add64 p.2 v)) (2 ^ l * (2 * k + 1) - 1, v0)
              put t l ((2 ^ l * (2 * k + 1)) >>> (l + 1)) r.2) = _
            rw [Vec.get_ok (by omega), ok_bind, er, ok_bind, hsh3, e']
          · intro i h1 h2
            unfold upd
            by_cases hi : i = 2 ^ l * (2 * k + 1)
            · subst hi
              rw [if_pos rfl, tz_eq hl64, if_pos (by omega), hr2']
            · rw [if_neg hi, hv i h1 h2]
              by_cases hc : tz i < l ∨ (tz i = l ∧ i < 2 ^ l * (2 * k + 1))
              · rw [if_pos hc, if_pos (by omega)]
              · rw [if_neg hc, if_neg]
                intro hc2
                have ht : tz i = l := by omega
                obtain ⟨h, q, hh, hq, htz⟩ := decomp (x := i) h1 (by simp only [W64]; omega)
                obtain rfl : h = l := by omega
                have g1 : 2 ^ h * (2 * k + 1) < 2 ^ h * (2 * q + 1) := by omega
                have g2 : 2 ^ h * (2 * q + 1) < 2 ^ h * (2 * k + 3) := by
                  have : 2 ^ h * (2 * k + 3) = 2 ^ h * (2 * k + 1) + 2 ^ (h + 1) := by
                    rw [show 2 * k + 3 = 2 * k + 1 + 2 by omega, Nat.mul_add _ (2 * k + 1), Nat.pow_succ]
                  omega
                have := Nat.lt_of_mul_lt_mul_left g1
                have := Nat.lt_of_mul_lt_mul_left g2
                omega)
        (n + 1) 0 t (by omega) (by omega)
        ⟨v, hR, fun i h1 h2 => by
          rw [hv i h1 h2]
          by_cases hc : tz i < l
          · rw [if_pos hc, if_pos (Or.inl hc)]
          · rw [if_neg hc, if_neg]
            intro hc2
            obtain ⟨h, q, hh, hq, htz⟩ := decomp (x := i) h1 (by simp only [W64]; omega)
            obtain rfl : h = l := by omega
            have := pow_le_node h q
            omega⟩
      obtain ⟨t1, s', e1, hgt, v1, r1, hv1⟩ := key
      simp only [Nat.mul_zero, Nat.add_zero] at e1
      refine ⟨t1, e1, v1, r1, fun i h1 h2 => ?_⟩
      rw [hv1 i h1 h2]
      by_cases hc : tz i < l + 1
      · rw [if_pos hc, if_pos (by omega)]
      · rw [if_neg hc, if_neg (by omega)])
  refine ⟨t1, e1, v1, r1, fun i h1 h2 => ?_⟩
  rw [hv1 i h1 h2, if_pos]
  obtain ⟨h, q, hh, hq, htz⟩ := decomp (x := i) h1 (by simp only [W64]; omega)
  rw [htz]
  by_cases hc : h < L - 1
  · exact hc
  · have h3 := pow_le_node h q
    have h4 : 2 ^ (L - 1) ≤ 2 ^ h := Nat.pow_le_pow_right (by decide) (by omega)
    omega

end MRS.Hft
