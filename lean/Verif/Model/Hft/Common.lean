import Verif.Model.Node

/-!
# Vendored Fenwick trees, part 1: common.hpp, darray.hpp and the loops shared by all classes

Source: include/hft/common.hpp, include/hft/darray.hpp, include/hft/fenwick/*.hpp.

`size_t` values are naturals.  Index arithmetic on positions inside a tree is not reduced modulo
`2^64`: theorems assume sizes below `2^48`, far above what `mmap` can serve, so no position can
wrap.  Values stored in trees and sums are reduced modulo `2^64` explicitly.
A `DArray` of length `n` is memory of exactly `n` elements filled with zeros (anonymous `mmap`,
darray.hpp lines 43-62); the rounding to whole pages is not credited, so an access past `n` counts
as out of bounds.  A failing `mmap` is not modelled.
-/

set_option autoImplicit false

namespace MRS.Hft
open Outcome

/-- Template parameter and build of a tree class.
* `bound`: the template parameter `BOUND`;
* `build`: `strictAlign` tells whether misaligned typed accesses are undefined behaviour;
* `strictShift`: a shift by 64 is undefined behaviour; otherwise the x86 rule (count modulo 64);
* `noTranshuge`: `HFT_DISABLE_TRANSHUGE` is defined. -/
structure Cfg where
  bound : Nat
  build : Build
  strictShift : Bool
  noTranshuge : Bool
  deriving DecidableEq, Repr

/-- `ceil_log2_plus1`, common.hpp line 66. -/
def ceilLog2Plus1 (n : Nat) : Nat := if n < 2 then 1 else 1 + ceilLog2Plus1 (n / 2)
termination_by n
decreasing_by omega

/-- `BOUNDSIZE`, line 17 of every tree class. -/
def Cfg.bs (c : Cfg) : Nat := ceilLog2Plus1 c.bound

/-- `rho`, common.hpp line 165. -/
def rho (x : Nat) : Outcome Nat := builtinCtz x

/-- `lambda`, common.hpp line 176: `63 ^ clzll(x)` is the position of the highest one. -/
def lambda (x : Nat) : Outcome Nat := if x = 0 then ub .ctzZero else ok (Nat.log2 x)

/-- `clear_rho`, common.hpp line 183. -/
def clearRho (x : Nat) : Nat := x &&& sub64 x 1

/-- `mask_rho`, common.hpp line 192. -/
def maskRho (x : Nat) : Nat := x &&& sub64 0 x

/-- `mask_lambda`, common.hpp lines 201-203: `2^63 >> clzll(x)`. -/
def maskLambda (x : Nat) : Outcome Nat :=
  if x = 0 then ub .ctzZero else ok ((2 ^ 63) >>> (63 - Nat.log2 x))

/-- `x >> k` on `uint64_t`. -/
def shr64 (c : Cfg) (x k : Nat) : Outcome Nat :=
  if k < 64 then ok (x >>> k) else if c.strictShift then ub .shift else ok (x >>> (k % 64))

/-- `x << k` on `uint64_t`. -/
def shl64 (c : Cfg) (x k : Nat) : Outcome Nat :=
  if k < 64 then ok (x <<< k % W64)
  else if c.strictShift then ub .shift else ok (x <<< (k % 64) % W64)

/-- An `int64_t` passed as `uint64_t`. -/
def u64 (x : Int) : Nat := (x % (W64 : Int)).toNat

/-- A fresh `DArray<uint8_t>` (darray.hpp lines 43-62): zeros; `mmap` returns whole pages. -/
def bytes (len : Nat) : Mem := ⟨4096, len, fun _ => 0⟩

/-- A fresh `DArray<uint64_t>`. -/
def words (len : Nat) : Vec Nat := ⟨len, fun _ => 0⟩

/-- `memcpy(&x, p, 8)` from a byte array. -/
def rd8 (m : Mem) (off : Nat) : Outcome Nat := if off + 8 ≤ m.size then ok (rd m off 8) else ub .oob

/-- `memcpy(p, &x, 8)` into a byte array. -/
def wr8 (m : Mem) (off v : Nat) : Outcome Mem :=
  if off + 8 ≤ m.size then ok (wr m off 8 v) else ub .oob

/-- `BYTE_MASK`, common.hpp lines 58-60. -/
def byteMask (len : Nat) : Outcome Nat := if len < 9 then ok (256 ^ len - 1) else ub .oob

/-- `~x` on `uint64_t`. -/
def not64 (x : Nat) : Nat := W64 - 1 - x

/-- `byteread`, common.hpp lines 235-239. -/
def byteread (m : Mem) (off len : Nat) : Outcome Nat := do
  let ret ← rd8 m off
  let mask ← byteMask len
  ok (ret &&& mask)

/-- `bytewrite`, common.hpp lines 241-247. -/
def bytewrite (m : Mem) (off len val : Nat) : Outcome Mem := do
  let old ← rd8 m off
  let mask ← byteMask len
  wr8 m off ((old &&& not64 mask) ||| (val &&& mask))

/-- `bytewrite_inc`, common.hpp lines 249-254. -/
def bytewriteInc (m : Mem) (off inc : Nat) : Outcome Mem := do
  let value ← rd8 m off
  wr8 m off (add64 value inc)

/-- `bitread`, common.hpp lines 256-267. -/
def bitread (c : Cfg) (m : Mem) (off frm len : Nat) : Outcome Nat := do
  let ret ← rd8 m off
  if frm + len ≤ 64 then
    let a ← shr64 c ret frm
    let k ← shr64 c (W64 - 1) (64 - len)
    ok (a &&& k)
  else
    let next ← rd8 m (off + 8)
    let a ← shr64 c ret frm
    let h ← shl64 c next (128 - frm - len)
    let h' ← shr64 c h (64 - len)
    ok (a ||| h')

/-- `bitwrite_inc`, common.hpp lines 290-308. -/
def bitwriteInc (c : Cfg) (m : Mem) (off frm len inc : Nat) : Outcome Mem := do
  let value ← rd8 m off
  let a ← shr64 c value frm
  let sum := add64 a inc
  let carry ← shr64 c sum (64 - frm)
  if frm + len ≤ 64 ∨ carry = 0 then
    let d ← shl64 c inc frm
    wr8 m off (add64 value d)
  else
    let k ← shr64 c (W64 - 1) (64 - frm)
    let d ← shl64 c sum frm
    let m1 ← wr8 m off ((value &&& k) ||| d)
    let next ← rd8 m1 (off + 8)
    wr8 m1 (off + 8) (add64 next carry)

/-! ## Loops -/

variable {T : Type}

/-- `while (idx != 0) { sum += <node idx>; idx = clear_rho(idx); }`: fixedf.hpp 35-44, fixedl.hpp
48-60, bytef.hpp 38-47, bytel.hpp 52-65, bitf.hpp 37-46, bitl.hpp 51-63, typef.hpp 81-102,
typel.hpp 70-93. -/
def prefixLoop (get : Nat → Outcome Nat) : Nat → Nat → Nat → Outcome Nat
  | 0, _, _ => ub .diverges
  | fuel + 1, idx, sum =>
    if idx = 0 then ok sum
    else do
      let v ← get idx
      prefixLoop get fuel (clearRho idx) (add64 sum v)

/-- `while (idx <= Size) { <node idx> += inc; idx += mask_rho(idx); }`: fixedf.hpp 46-51, fixedl.hpp
62-70, bytef.hpp 49-54, bytel.hpp 67-76, bitf.hpp 48-53, bitl.hpp 65-73, typef.hpp 104-121,
typel.hpp 95-114. -/
def addLoop (size : Nat) (inc : T → Nat → Outcome T) : Nat → Nat → T → Outcome T
  | 0, _, _ => ub .diverges
  | fuel + 1, idx, t =>
    if idx ≤ size then do
      let t' ← inc t idx
      addLoop size inc fuel (add64 idx (maskRho idx)) t'
    else ok t

/-- `for (; m != 0; m >>= 1) { if (node + m > Size) continue; value = ..; if (*val >= value) { node
+= m; *val -= value; } }`; result: `node` and `*val`.  fixedf.hpp 57-67, bytef.hpp 60-70,
bitf.hpp 59-69, typef.hpp 127-150 and the corresponding `compFind`. -/
def findLoop (size : Nat) (value : Nat → Outcome Nat) : Nat → Nat → Nat → Nat → Outcome (Nat × Nat)
  | 0, _, _, _ => ub .diverges
  | fuel + 1, m, node, val =>
    if m = 0 then ok (node, val)
    else if node + m > size then findLoop size value fuel (m >>> 1) node val
    else do
      let v ← value (node + m)
      if val ≥ v then findLoop size value fuel (m >>> 1) (node + m) (val - v)
      else findLoop size value fuel (m >>> 1) node val

/-- The same search in a level-ordered tree: `height` counts down to 0; `probe height idx` is the
value of the node, or nothing for `continue`.  Returns `(node, *val)`.  fixedl.hpp 76-92,
bytel.hpp 82-100, bitl.hpp 79-96, typel.hpp 120-150 and the corresponding `compFind`. -/
def findLevels (probe : Nat → Nat → Outcome (Option Nat)) :
    Nat → Nat → Nat → Nat → Outcome (Nat × Nat)
  | 0, _, node, val => ok (node, val)
  | h + 1, idx, node, val => do
    let p ← probe h idx
    match p with
    | none => findLevels probe h (idx <<< 1) node val
    | some v =>
      if val ≥ v then findLevels probe h (idx <<< 1 + 1) (node + 1 <<< h) (val - v)
      else findLevels probe h (idx <<< 1) node val

/-- `for (size_t idx = a; idx <= size; idx += m) t = body(idx, t)`. -/
def stride (size m : Nat) (body : Nat → T → Outcome T) : Nat → Nat → T → Outcome T
  | 0, _, _ => ub .diverges
  | fuel + 1, idx, t =>
    if idx ≤ size then do
      let t' ← body idx t
      stride size m body fuel (idx + m) t'
    else ok t

/-- `for (size_t m = 2; m <= size; m <<= 1) t = body(m, t)`. -/
def doubling (size : Nat) (body : Nat → T → Outcome T) : Nat → Nat → T → Outcome T
  | 0, _, _ => ub .diverges
  | fuel + 1, m, t =>
    if m ≤ size then do
      let t' ← body m t
      doubling size body fuel (m <<< 1) t'
    else ok t

/-- Constructor of the classical layout: first the leaves, then `node idx += node (idx - m/2)` for
`m = 2, 4, ..`.  fixedf.hpp 25-33, bytef.hpp 25-36, bitf.hpp 27-35, typef.hpp 25-79. -/
def buildF (seq : Vec Nat) (size : Nat) (leaf : Nat → Nat → T → Outcome T)
    (acc : Nat → Nat → T → Outcome T) (t : T) : Outcome T := do
  let t1 ← forFrom 1 size (fun j t => do
    let v ← seq.get (j - 1)
    leaf j v t) t
  doubling size (fun m t => stride size m (fun idx t => acc idx (idx - m / 2) t) (size + 1) m t) 64 2 t1

/-- `Levels`, fixedl.hpp line 27, bytel.hpp 27, bitl.hpp 27, typel.hpp 30. -/
def levelsOf (size : Nat) : Outcome Nat :=
  if size ≠ 0 then do
    let l ← lambda size
    ok (l + 2)
  else ok 1

/-- The `Level` array: `Level[i] = ((size + 2^(i-1)) / 2^i) * hsize(i-1) + Level[i-1]`.
fixedl.hpp 28-30, bytel.hpp 28-30, bitl.hpp 28-30. -/
def levelStarts (hsize : Nat → Nat) (size levels : Nat) : Outcome (Vec Nat) :=
  forFrom 1 (levels - 1) (fun i l => do
    let prev ← l.get (i - 1)
    l.set i ((size + 1 <<< (i - 1)) / (1 <<< i) * hsize (i - 1) + prev)) (words levels)

/-- Constructor of the level-ordered layout.  `get j k` and `put l k v` access the `k`-th node of a
level.  fixedl.hpp 34-45, bytel.hpp 34-49, bitl.hpp 34-48. -/
def buildL (seq : Vec Nat) (size levels : Nat) (get : T → Nat → Nat → Outcome Nat)
    (put : T → Nat → Nat → Nat → Outcome T) (t : T) : Outcome T :=
  forN (levels - 1) (fun l t =>
    stride size (1 <<< (l + 1)) (fun node t => do
      let v0 ← seq.get (node - 1)
      let r ← forN l (fun j (p : Nat × Nat) => do
        let v ← get t j (p.1 >>> 1)
        ok (p.1 >>> 1, add64 p.2 v)) (node - 1, v0)
      put t l (node >>> (l + 1)) r.2) (size + 1) (1 <<< l) t) t

end MRS.Hft
