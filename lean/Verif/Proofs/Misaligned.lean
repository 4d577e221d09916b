import Verif.Proofs.Strict

/-!
# Which calls make a misaligned access

If misaligned accesses count as undefined behaviour and a call returns, the addresses it used were
aligned.
-/

set_option autoImplicit false

namespace MRS
open Outcome Spec

theorem chk_inv {b : Build} {m : Mem} {off len al : Nat} {u : Unit} (hs : b.strictAlign = true)
    (h : chk b m off len al = ok u) : (m.addr + off) % al = 0 := by
  unfold chk at h
  split at h
  · rw [hs] at h
    by_cases ha : (m.addr + off) % al = 0
    · exact ha
    · simp [ha] at h
  · cases h

/-! ## Nothing moves the buffer -/

/-- The memory returned by `x`, if any, is at address `a`. -/
def Keeps (a : Nat) (x : Outcome Mem) : Prop := ∀ m', x = ok m' → m'.addr = a

theorem Keeps.bind {α : Type} {a : Nat} {x : Outcome α} {f : α → Outcome Mem}
    (h : ∀ v, x = ok v → Keeps a (f v)) : Keeps a (x >>= f) := by
  intro m' e
  obtain ⟨v, e1, e2⟩ := bind_ok_inv e
  exact h v e1 m' e2

theorem forFrom_keep {σ : Type} {f : Nat → σ → Outcome σ} (P : σ → Prop)
    (h : ∀ i s s', P s → f i s = ok s' → P s') : ∀ (n a : Nat) (s s' : σ), P s →
    forFrom a n f s = ok s' → P s' := by
  intro n
  induction n with
  | zero => intro a s s' hp e; injection e with e; rw [← e]; exact hp
  | succ n ih =>
    intro a s s' hp e
    obtain ⟨s1, e1, e2⟩ := bind_ok_inv e
    exact ih (a + 1) s1 s' (h a s s1 hp e1) e2

theorem store_addr {b : Build} {m m' : Mem} {off w v : Nat} (h : store b m off w v = ok m') :
    m'.addr = m.addr := by
  obtain ⟨_, _, e⟩ := bind_ok_inv h
  injection e with e
  rw [← e]; rfl

theorem storeVec_addr {b : Build} {m m' : Mem} {off vb w : Nat} {f : Nat → Nat}
    (h : storeVec b m off vb w f = ok m') : m'.addr = m.addr := by
  obtain ⟨_, _, e⟩ := bind_ok_inv h
  injection e with e
  rw [← e]; rfl

theorem bumpLoop_addr {b : Build} {base w a n : Nat} {sign : Bool} {m m' : Mem}
    (h : bumpLoop b base w a n sign m = ok m') : m'.addr = m.addr := by
  refine forFrom_keep (fun s => s.addr = m.addr) ?_ n a m m' rfl h
  intro i s s' hp e
  obtain ⟨_, _, e⟩ := bind_ok_inv e
  rw [store_addr e]; exact hp

theorem nodeUpdate_addr {b : Build} {c : NodeCfg} {m m' : Mem} {off i : Nat} {sign : Bool}
    (h : nodeUpdate b c m off i sign = ok m') : m'.addr = m.addr := by
  unfold nodeUpdate at h
  split at h
  · injection h with h; rw [h]
  · obtain ⟨_, _, h⟩ := bind_ok_inv h
    dsimp only at h
    split at h
    · obtain ⟨_, _, h⟩ := bind_ok_inv h
      obtain ⟨_, _, h⟩ := bind_ok_inv h
      obtain ⟨_, e, h⟩ := bind_ok_inv h
      obtain ⟨_, _, h⟩ := bind_ok_inv h
      obtain ⟨_, _, h⟩ := bind_ok_inv h
      rw [storeVec_addr h, storeVec_addr e]
    · split at h
      · obtain ⟨_, e, h⟩ := bind_ok_inv h
        rw [bumpLoop_addr h, bumpLoop_addr e]
      · cases h

theorem buildSeg_addr {b : Build} {c : NodeCfg} {input : Vec Nat} {off i : Nat} {m m' : Mem}
    (h : buildSeg b c input off i m = ok m') : m'.addr = m.addr := by
  unfold buildSeg at h
  obtain ⟨_, _, h⟩ := bind_ok_inv h
  obtain ⟨m1, e1, h⟩ := bind_ok_inv h
  obtain ⟨m2, e2, h⟩ := bind_ok_inv h
  have h1 := store_addr e1
  have h2 : m2.addr = m1.addr := by
    refine forFrom_keep (fun s => s.addr = m1.addr) ?_ _ _ m1 m2 rfl e2
    intro i s s' hp e
    obtain ⟨_, _, e⟩ := bind_ok_inv e
    obtain ⟨_, _, e⟩ := bind_ok_inv e
    rw [store_addr e]; exact hp
  split at h
  · obtain ⟨_, _, h⟩ := bind_ok_inv h
    obtain ⟨_, _, h⟩ := bind_ok_inv h
    rw [store_addr h, h2, h1]
  · injection h with h; rw [← h, h2, h1]

/-- The node is built in place, and its first summary is at an aligned address. -/
theorem nodeBuild_inv {b : Build} {c : NodeCfg} {input : Vec Nat} {off : Nat} {m m' : Mem}
    (h : nodeBuild b c input off m = ok m') : m'.addr = m.addr ∧
      (b.strictAlign = true → (m.addr + off) % c.sumB = 0) := by
  unfold nodeBuild at h
  obtain ⟨m1, e1, h⟩ := bind_ok_inv h
  obtain ⟨m2, e2, h⟩ := bind_ok_inv h
  have h1 : m1.addr = m.addr := by
    obtain ⟨_, _, e⟩ := bind_ok_inv e1
    injection e with e
    rw [← e]
  have h2 := store_addr e2
  refine ⟨?_, fun hs => ?_⟩
  · rw [← h1, ← h2]
    exact forFrom_keep (fun s => s.addr = m2.addr)
      (fun i s s' hp e => by rw [buildSeg_addr e]; exact hp) _ _ m2 m' rfl h
  · obtain ⟨_, e3, _⟩ := bind_ok_inv e2
    have := chk_inv hs e3
    rw [h1] at this
    unfold NodeCfg.sumOff at this
    rw [Nat.zero_mul, Nat.add_zero] at this
    exact this

theorem buildLeaves_addr {b : Build} {fam : Family} {input : Vec Nat} {n begin_ nodes : Nat}
    {m m' : Mem} (h : buildLeaves b fam input n begin_ nodes m = ok m') : m'.addr = m.addr := by
  unfold buildLeaves at h
  obtain ⟨st, e, h⟩ := bind_ok_inv h
  injection h with h
  rw [← h]
  refine forFrom_keep (fun s => s.1.addr = m.addr) ?_ _ _ _ st rfl e
  intro i s s' hp e
  obtain ⟨_, _, e⟩ := bind_ok_inv e
  obtain ⟨_, e1, e⟩ := bind_ok_inv e
  injection e with e
  rw [← e, (nodeBuild_inv e1).1]; exact hp

theorem buildInner_inv {b : Build} {c : NodeCfg} {input : Vec Nat} {n begin_ nodes step : Nat}
    {m m' : Mem} (h : buildInner b c input n begin_ nodes step m = ok m') : m'.addr = m.addr ∧
      (0 < nodes → b.strictAlign = true → (m.addr + begin_) % c.sumB = 0) := by
  unfold buildInner at h
  obtain ⟨st, e, h⟩ := bind_ok_inv h
  injection h with h
  constructor
  · rw [← h]
    refine forFrom_keep (fun s => s.1.addr = m.addr) ?_ _ _ _ st rfl e
    intro i s s' hp e
    obtain ⟨_, _, e⟩ := bind_ok_inv e
    obtain ⟨_, e1, e⟩ := bind_ok_inv e
    injection e with e
    rw [← e, (nodeBuild_inv e1).1]; exact hp
  · intro hn hs
    obtain ⟨k, rfl⟩ : ∃ k, nodes = k + 1 := ⟨nodes - 1, by omega⟩
    obtain ⟨s1, e1, _⟩ := bind_ok_inv e
    obtain ⟨_, _, e1⟩ := bind_ok_inv e1
    obtain ⟨_, e2, _⟩ := bind_ok_inv e1
    have := (nodeBuild_inv e2).2 hs
    rw [Nat.zero_mul, Nat.add_zero] at this
    exact this

/-- A height-3 `avx512` tree has 64-bit summaries at `data + 12`. -/
theorem avx512Build3_inv {b : Build} {addr n : Nat} {input : Vec Nat} {t t' : Tree}
    (hs : b.strictAlign = true) (h1 : 131072 < n) (h2 : n ≤ 16777216)
    (h : treeBuild b avx512Fam 3 addr input n t = ok t') : (addr + 12) % 8 = 0 := by
  obtain ⟨cv, elev, hlen, q0, q1, q2⟩ := avx512_levels3 (b := b) h1 h2
  unfold treeBuild at h
  obtain ⟨_, _, h⟩ := bind_ok_inv h
  rw [elev, ok_bind] at h
  dsimp only at h
  obtain ⟨m0, e0, h⟩ := bind_ok_inv h
  rw [if_neg (by decide)] at h
  obtain ⟨nodes, _, h⟩ := bind_ok_inv h
  obtain ⟨m1, e1, h⟩ := bind_ok_inv h
  obtain ⟨s, e2, _⟩ := bind_ok_inv h
  have h0 : m0.addr = addr := by
    refine forFrom_keep (fun s => s.addr = addr) ?_ _ _ _ m0 rfl e0
    intro i s s' hp e
    obtain ⟨_, _, e⟩ := bind_ok_inv e
    rw [store_addr e]; exact hp
  have h3 := buildLeaves_addr e1
  rw [show avx512Fam.uppers = [avx512Node256, avx512Node128] from rfl] at e2
  unfold buildUppers at e2
  dsimp only at e2
  rw [if_pos (by decide)] at e2
  obtain ⟨nodes1, _, e2⟩ := bind_ok_inv e2
  obtain ⟨m2, e4, e2⟩ := bind_ok_inv e2
  rw [ok_bind] at e2
  unfold buildUppers at e2
  dsimp only at e2
  rw [if_pos (by decide)] at e2
  obtain ⟨nodes2, g2, e2⟩ := bind_ok_inv e2
  obtain ⟨m3, e6, _⟩ := bind_ok_inv e2
  rw [Vec.get_ok (by rw [hlen]; decide)] at g2
  injection g2 with g2
  have hn2 : 0 < nodes2 := by
    rw [← g2]
    show 0 < cv.f 0
    rw [q0]; decide
  have h4 := (buildInner_inv e6).2 hn2 hs
  rw [(buildInner_inv e4).1, h3, h0] at h4
  replace h4 : (addr + sub64 (sub64 (sub64 (add64 (0 + ceilDiv n 512 * 1088 + ceilDiv n 131072 * 1088
    + 1 * 576) (3 * 4)) (mul64 nodes 1088)) (mul64 nodes1 1088)) (mul64 nodes2 576)) % 8 = 0 := h4
  simp only [add64, sub64, mul64, W64] at h4
  omega

/-- The vector load of `update`. -/
theorem nodeUpdate_inv {b : Build} {m m' : Mem} {off i : Nat} {sign : Bool}
    (hs : b.strictAlign = true) (h2 : b.simd2 = true) (hi : i ≠ 128)
    (h : nodeUpdate b avx2Node128 m off i sign = ok m') : (m.addr + off) % 32 = 0 := by
  unfold nodeUpdate at h
  rw [if_neg (show ¬ i = avx2Node128.fanout from hi)] at h
  obtain ⟨_, _, h⟩ := bind_ok_inv h
  dsimp only at h
  rw [if_pos (show avx2Node128.simd b = true from h2)] at h
  obtain ⟨_, _, h⟩ := bind_ok_inv h
  obtain ⟨_, e, _⟩ := bind_ok_inv h
  obtain ⟨_, e, _⟩ := bind_ok_inv e
  exact chk_inv hs e

/-- A SIMD `update` of an `avx2` tree that returns had its leaves at multiples of 32. -/
theorem avx2Update_inv {b : Build} {H n : Nat} {t t' : Tree} {i : Nat} {sign : Bool}
    (hs : b.strictAlign = true) (h2 : b.simd2 = true) (hp : t.ptr = some (4 * H)) (hi : i < n)
    (hn : H = 1 → n ≤ 128) (h : avx2Update b H t i sign = ok t') : (t.mem.addr + 4 * H) % 32 = 0 := by
  unfold avx2Update at h
  obtain ⟨_, _, h⟩ := bind_ok_inv h
  split at h
  · unfold avx2Update1 at h
    rw [Tree.base_ok hp, ok_bind] at h
    obtain ⟨_, e, _⟩ := bind_ok_inv h
    have := hn rfl
    exact nodeUpdate_inv hs h2 (by omega) e
  · unfold avx2Update2 at h
    dsimp only at h
    rw [Tree.base_ok hp, ok_bind] at h
    obtain ⟨_, e1, h⟩ := bind_ok_inv h
    obtain ⟨_, e2, _⟩ := bind_ok_inv h
    have := nodeUpdate_inv hs h2 (by omega) e2
    rw [nodeUpdate_addr e1] at this
    replace this : (t.mem.addr + (4 * 2 + add64 288 (mul64 (i / 128) 288))) % 32 = 0 := this
    simp only [add64, mul64, W64] at this
    omega
  · unfold avx2Update3 at h
    dsimp only at h
    rw [Tree.base_ok hp, ok_bind] at h
    obtain ⟨n1, _, h⟩ := bind_ok_inv h
    obtain ⟨_, e1, h⟩ := bind_ok_inv h
    obtain ⟨_, e2, h⟩ := bind_ok_inv h
    obtain ⟨_, e3, _⟩ := bind_ok_inv h
    have := nodeUpdate_inv hs h2 (by omega) e3
    rw [nodeUpdate_addr e2, nodeUpdate_addr e1] at this
    generalize add64 (i % (128 * 64) / 128) (mul64 (i / (128 * 64)) 64) = z at this
    replace this : (t.mem.addr + (4 * 3 + add64 (mul64 ((1 + n1) % 2 ^ 32) 288) (mul64 z 288))) % 32
      = 0 := this
    simp only [add64, mul64, W64] at this
    omega
  · unfold avx2Update4 at h
    dsimp only at h
    rw [Tree.base_ok hp, ok_bind] at h
    obtain ⟨n1, _, h⟩ := bind_ok_inv h
    obtain ⟨n2, _, h⟩ := bind_ok_inv h
    obtain ⟨_, e1, h⟩ := bind_ok_inv h
    obtain ⟨_, e2, h⟩ := bind_ok_inv h
    obtain ⟨_, e3, h⟩ := bind_ok_inv h
    obtain ⟨_, e4, _⟩ := bind_ok_inv h
    have := nodeUpdate_inv hs h2 (by omega) e4
    rw [nodeUpdate_addr e3, nodeUpdate_addr e2, nodeUpdate_addr e1] at this
    generalize add64 (add64 (i % (128 * 64) / 128) (mul64 (i % (128 * 64 * 64) / (128 * 64)) 64))
      (mul64 (mul64 (i / (128 * 64 * 64)) 64) 64) = z at this
    replace this : (t.mem.addr + (4 * 4 + add64 (add64 160 (mul64 ((n1 + n2) % 2 ^ 32) 288))
      (mul64 z 288))) % 32 = 0 := this
    simp only [add64, mul64, W64] at this
    omega
  · cases h

end MRS
