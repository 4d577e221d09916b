/-!
# Machine model

Outcomes, build flags, byte memory, checked vectors, 64-bit wrapping arithmetic and
bounded loops.  Shared by every modelled file of /repo; nothing here is specific to one
C++ function.
-/

set_option autoImplicit false

namespace MRS

/-- Kinds of undefined behaviour that the model distinguishes. -/
inductive Fault
  | oob          -- access outside an object
  | misaligned   -- typed or aligned-vector access at a misaligned address
  | shift        -- shift count not smaller than the width
  | ctzZero      -- `__builtin_ctz(0)` or `__builtin_clz(0)`
  | nullDeref    -- use of a null `m_ptr`
  | unsupported  -- a mode with no definition at all
  | diverges     -- a loop that never ends
  | uninit       -- use of a variable that was never given a value
  | divZero      -- `/` or `%` with divisor zero
  deriving DecidableEq, Repr

/-- Result of running a piece of C++: a value, undefined behaviour, or a failed `assert`. -/
inductive Outcome (α : Type)
  | ok (a : α)
  | ub (f : Fault)
  | abort
  deriving DecidableEq, Repr

namespace Outcome

variable {α β γ : Type}

/-- Sequencing: undefined behaviour and failed assertions propagate. -/
@[inline] protected def bind (x : Outcome α) (f : α → Outcome β) : Outcome β :=
  match x with
  | ok a => f a
  | ub e => ub e
  | abort => abort

instance : Monad Outcome where
  pure := Outcome.ok
  bind := Outcome.bind

@[simp] theorem pure_eq (a : α) : (pure a : Outcome α) = ok a := rfl
@[simp] theorem ok_bind (a : α) (f : α → Outcome β) : (ok a >>= f) = f a := rfl
@[simp] theorem ub_bind (e : Fault) (f : α → Outcome β) : (ub e >>= f) = ub e := rfl
@[simp] theorem abort_bind (f : α → Outcome β) : ((abort : Outcome α) >>= f) = abort := rfl

theorem bind_assoc' (x : Outcome α) (f : α → Outcome β) (g : β → Outcome γ) :
    (x >>= f) >>= g = x >>= fun a => f a >>= g := by
  cases x <;> rfl

end Outcome

open Outcome

/-- Preprocessor / compiler configuration.
* `ndebug`: `NDEBUG` is defined (CMake default Release), assertions are off;
* `simd2`: `DISABLE_AVX` is *not* defined (avx2 nodes use SIMD code);
* `simd512`: `AVX512` is defined (avx512 nodes use SIMD code);
* `strictAlign`: misaligned accesses count as undefined behaviour. -/
structure Build where
  ndebug : Bool
  simd2 : Bool
  simd512 : Bool
  strictAlign : Bool
  deriving DecidableEq, Repr

/-- `assert(cond)` from `<cassert>`. -/
def massert (b : Build) (cond : Bool) : Outcome Unit :=
  if b.ndebug || cond then ok () else abort

theorem massert_ok {b : Build} {c : Bool} (h : c = true) : massert b c = ok () := by
  simp [massert, h]

/-- `2^64`. -/
abbrev W64 : Nat := 18446744073709551616

/-- `uint64_t` addition. -/
def add64 (a b : Nat) : Nat := (a + b) % W64
/-- `uint64_t` subtraction. -/
def sub64 (a b : Nat) : Nat := (a + (W64 - b % W64)) % W64
/-- `uint64_t` multiplication. -/
def mul64 (a b : Nat) : Nat := (a * b) % W64

theorem add64_eq {a b : Nat} (h : a + b < W64) : add64 a b = a + b := Nat.mod_eq_of_lt h
theorem mul64_eq {a b : Nat} (h : a * b < W64) : mul64 a b = a * b := Nat.mod_eq_of_lt h
theorem sub64_eq {a b : Nat} (h : b ≤ a) (ha : a < W64) : sub64 a b = a - b := by
  unfold sub64; simp only [W64] at *; omega

/-- A heap buffer: base address, size in bytes, contents (as a total function; every access
through `load`/`store` is bounds checked). -/
structure Mem where
  addr : Nat
  size : Nat
  byte : Nat → Nat

/-- Little-endian value of the `w` bytes at offset `off`. -/
def rd (m : Mem) (off : Nat) : Nat → Nat
  | 0 => 0
  | w + 1 => rd m off w + m.byte (off + w) % 256 * 256 ^ w

/-- Write the `w` low bytes of `v` at offset `off`, little-endian. -/
def wr (m : Mem) (off w v : Nat) : Mem :=
  { m with byte := fun a => if off ≤ a ∧ a < off + w then v / 256 ^ (a - off) % 256 else m.byte a }

/-- Bounds and alignment check of an access of `len` bytes with required alignment `al`. -/
def chk (b : Build) (m : Mem) (off len al : Nat) : Outcome Unit :=
  if off + len ≤ m.size then
    if b.strictAlign && decide ((m.addr + off) % al ≠ 0) then ub .misaligned else ok ()
  else ub .oob

theorem chk_ok {b : Build} {m : Mem} {off len al : Nat} (h : off + len ≤ m.size)
    (ha : b.strictAlign = true → (m.addr + off) % al = 0) : chk b m off len al = ok () := by
  unfold chk
  rw [if_pos h]
  cases hs : b.strictAlign <;> simp_all

/-- Typed load of a `w`-byte unsigned integer (natural alignment `w`). -/
def load (b : Build) (m : Mem) (off w : Nat) : Outcome Nat := do
  chk b m off w w
  pure (rd m off w)

/-- Typed store of a `w`-byte unsigned integer. -/
def store (b : Build) (m : Mem) (off w v : Nat) : Outcome Mem := do
  chk b m off w w
  pure (wr m off w v)

/-- A `std::vector` or array: length and contents; every access is bounds checked. -/
structure Vec (α : Type) where
  len : Nat
  f : Nat → α

namespace Vec
variable {α : Type}

/-- `v[i]` as an rvalue. -/
def get (v : Vec α) (i : Nat) : Outcome α := if i < v.len then ok (v.f i) else ub .oob

/-- `v[i] = a`. -/
def set (v : Vec α) (i : Nat) (a : α) : Outcome (Vec α) :=
  if i < v.len then ok { v with f := fun j => if j = i then a else v.f j } else ub .oob

theorem get_ok {v : Vec α} {i : Nat} (h : i < v.len) : v.get i = ok (v.f i) := by
  simp [get, h]

theorem set_ok {v : Vec α} {i : Nat} (a : α) (h : i < v.len) :
    v.set i a = ok { v with f := fun j => if j = i then a else v.f j } := by
  simp [set, h]

/-- A vector with the given contents. -/
def ofList (ws : List (BitVec 64)) : Vec (BitVec 64) := ⟨ws.length, fun j => ws.getD j 0#64⟩

/-- The vector as a list. -/
def toList (v : Vec α) : List α := (List.range v.len).map v.f

end Vec

variable {σ : Type}

/-- `for (i = a; i < a + n; ++i) s = body(i, s)`. -/
def forFrom (a : Nat) : Nat → (Nat → σ → Outcome σ) → σ → Outcome σ
  | 0, _, s => ok s
  | n + 1, body, s => do
    let s' ← body a s
    forFrom (a + 1) n body s'

/-- `for (i = 0; i < n; ++i) s = body(i, s)`. -/
def forN (n : Nat) (body : Nat → σ → Outcome σ) (s : σ) : Outcome σ := forFrom 0 n body s

theorem forFrom_inv {body : Nat → σ → Outcome σ} (P : Nat → σ → Prop) :
    ∀ (n a : Nat) (s : σ), P a s →
    (∀ i s, a ≤ i → i < a + n → P i s → ∃ s', body i s = ok s' ∧ P (i + 1) s') →
    ∃ s', forFrom a n body s = ok s' ∧ P (a + n) s' := by
  intro n
  induction n with
  | zero => intro a s h _; exact ⟨s, rfl, h⟩
  | succ n ih =>
    intro a s h hs
    obtain ⟨s1, e1, p1⟩ := hs a s (Nat.le_refl _) (by omega) h
    obtain ⟨s2, e2, p2⟩ := ih (a + 1) s1 p1 (fun i s hi hlt hp => hs i s (by omega) (by omega) hp)
    refine ⟨s2, ?_, ?_⟩
    · simp [forFrom, e1, e2]
    · have : a + 1 + n = a + (n + 1) := by omega
      rw [← this]; exact p2

theorem forN_inv {body : Nat → σ → Outcome σ} (P : Nat → σ → Prop) (n : Nat) (s : σ)
    (h0 : P 0 s)
    (hs : ∀ i s, i < n → P i s → ∃ s', body i s = ok s' ∧ P (i + 1) s') :
    ∃ s', forN n body s = ok s' ∧ P n s' := by
  have := forFrom_inv (body := body) P n 0 s h0 (fun i s _ hlt hp => hs i s (by omega) hp)
  simpa [forN] using this

end MRS
