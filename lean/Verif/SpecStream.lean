/-!
# Specification of the stream format and of memory use

Numbers are written most significant byte first; memory is taken in pages of 4096 bytes.
-/

set_option autoImplicit false

namespace MRS.Spec.Stream

/-- `w` bytes of `v`, most significant first. -/
def big (w v : Nat) : List Nat := (List.range w).map fun j => v / 256 ^ (w - 1 - j) % 256

/-- A sequence of `w`-byte numbers. -/
def bigs (w : Nat) (l : List Nat) : List Nat := l.flatMap (big w)

/-- A counted sequence of `w`-byte numbers. -/
def counted (w : Nat) (l : List Nat) : List Nat := big 8 l.length ++ bigs w l

/-- Bytes of the whole pages that hold `b` bytes. -/
def pages (b : Nat) : Nat := (b + 4095) / 4096 * 4096

end MRS.Spec.Stream
