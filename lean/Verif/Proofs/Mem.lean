import Verif.Model.Node

/-! # Lemmas about byte memory and lanes -/

set_option autoImplicit false

namespace MRS
open Outcome

/-- `m'` is `m` with at most the bytes in `[lo, hi)` changed. -/
structure SameOff (m m' : Mem) (lo hi : Nat) : Prop where
  addr : m'.addr = m.addr
  size : m'.size = m.size
  byte : ∀ a, a < lo ∨ hi ≤ a → m'.byte a = m.byte a

theorem SameOff.refl (m : Mem) (lo hi : Nat) : SameOff m m lo hi := ⟨rfl, rfl, fun _ _ => rfl⟩

theorem SameOff.trans {m1 m2 m3 : Mem} {lo hi : Nat} (h1 : SameOff m1 m2 lo hi)
    (h2 : SameOff m2 m3 lo hi) : SameOff m1 m3 lo hi :=
  ⟨h2.addr.trans h1.addr, h2.size.trans h1.size,
    fun a ha => (h2.byte a ha).trans (h1.byte a ha)⟩

theorem SameOff.mono {m1 m2 : Mem} {lo hi lo' hi' : Nat} (h : SameOff m1 m2 lo hi)
    (h1 : lo' ≤ lo) (h2 : hi ≤ hi') : SameOff m1 m2 lo' hi' :=
  ⟨h.addr, h.size, fun a ha => h.byte a (by omega)⟩

theorem rd_congr {m m' : Mem} {off : Nat} :
    ∀ {w : Nat}, (∀ a, off ≤ a → a < off + w → m'.byte a = m.byte a) → rd m' off w = rd m off w
  | 0, _ => rfl
  | w + 1, h => by
    unfold rd
    rw [rd_congr (w := w) (fun a h1 h2 => h a h1 (by omega)), h (off + w) (by omega) (by omega)]

theorem SameOff.rd {m m' : Mem} {lo hi off w : Nat} (h : SameOff m m' lo hi)
    (hd : off + w ≤ lo ∨ hi ≤ off) : rd m' off w = rd m off w :=
  rd_congr fun a h1 h2 => h.byte a (by omega)

theorem rd_lt (m : Mem) (off : Nat) : ∀ w, rd m off w < 256 ^ w
  | 0 => by simp [rd]
  | w + 1 => by
    have ih := rd_lt m off w
    have : m.byte (off + w) % 256 < 256 := Nat.mod_lt _ (by decide)
    unfold rd
    rw [Nat.pow_succ]
    have h2 : m.byte (off + w) % 256 * 256 ^ w ≤ 255 * 256 ^ w :=
      Nat.mul_le_mul_right _ (by omega)
    omega

theorem rd_of_bytes {m : Mem} {off v : Nat} :
    ∀ {w : Nat}, (∀ k, k < w → m.byte (off + k) = v / 256 ^ k % 256) → rd m off w = v % 256 ^ w
  | 0, _ => by simp [rd, Nat.mod_one]
  | w + 1, h => by
    unfold rd
    rw [rd_of_bytes (w := w) (fun k hk => h k (by omega)), h w (by omega), Nat.mod_mod,
      Nat.pow_succ, Nat.mod_mul, Nat.mul_comm (256 ^ w)]

theorem rd_wr_same (m : Mem) (off w v : Nat) : rd (wr m off w v) off w = v % 256 ^ w := by
  apply rd_of_bytes
  intro k hk
  simp only [wr]
  rw [if_pos (by omega)]
  congr 2
  congr 1
  omega

theorem wr_sameOff (m : Mem) (off w v : Nat) : SameOff m (wr m off w v) off (off + w) :=
  ⟨rfl, rfl, fun a ha => by simp only [wr]; rw [if_neg (by omega)]⟩

theorem rd_wr_disj (m : Mem) {off w v off' w' : Nat} (h : off' + w' ≤ off ∨ off + w ≤ off') :
    rd (wr m off w v) off' w' = rd m off' w' :=
  (wr_sameOff m off w v).rd h

theorem wrLanes_sameOff (m : Mem) (off vb w : Nat) (f : Nat → Nat) :
    SameOff m (wrLanes m off vb w f) off (off + vb) :=
  ⟨rfl, rfl, fun a ha => by simp only [wrLanes]; rw [if_neg (by omega)]⟩

theorem rd_wrLanes {m : Mem} {off vb w : Nat} {f : Nat → Nat} {z : Nat} (hw : 0 < w)
    (h : z * w + w ≤ vb) : rd (wrLanes m off vb w f) (off + z * w) w = f z % 256 ^ w := by
  apply rd_of_bytes
  intro k hk
  simp only [wrLanes]
  rw [if_pos (by omega)]
  have e : off + z * w + k - off = k + w * z := by rw [Nat.mul_comm w z]; omega
  rw [e, Nat.add_mul_div_left _ _ hw, Nat.div_eq_of_lt hk, Nat.add_mul_mod_self_left,
    Nat.mod_eq_of_lt hk, Nat.zero_add]

theorem load_ok {b : Build} {m : Mem} {off w : Nat} (h : off + w ≤ m.size)
    (ha : b.strictAlign = true → (m.addr + off) % w = 0) : load b m off w = ok (rd m off w) := by
  simp [load, chk_ok h ha]

theorem store_ok {b : Build} {m : Mem} {off w v : Nat} (h : off + w ≤ m.size)
    (ha : b.strictAlign = true → (m.addr + off) % w = 0) :
    store b m off w v = ok (wr m off w v) := by
  simp [store, chk_ok h ha]

theorem loadVec_ok {b : Build} {m : Mem} {off vb al w : Nat} (h : off + vb ≤ m.size)
    (ha : b.strictAlign = true → (m.addr + off) % al = 0) :
    loadVec b m off vb al w = ok fun z => rd m (off + z * w) w := by
  simp [loadVec, chk_ok h ha]

theorem storeVec_ok {b : Build} {m : Mem} {off vb w : Nat} {f : Nat → Nat}
    (h : off + vb ≤ m.size) : storeVec b m off vb w f = ok (wrLanes m off vb w f) := by
  simp [storeVec, chk_ok h (al := 1) (fun _ => Nat.mod_one _)]

end MRS
