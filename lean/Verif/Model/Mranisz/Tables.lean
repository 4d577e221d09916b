/-!
# Constant tables of include/mranisz/shared

Generated by `tools/gen_mranisz_tables.py` from the text of the C++ sources (values copied, not
recomputed).
-/

set_option autoImplicit false

namespace MRS.Mran

/-- `masks`, include/mranisz/shared/rank.hpp: identical copies at lines
327-349, 862-884, 1481-1503. -/
def masksTable : List Nat := [
  0x0000000000000000, 0x8000000000000000, 0xC000000000000000, 0xE000000000000000,
  0xF000000000000000, 0xF800000000000000, 0xFC00000000000000, 0xFE00000000000000,
  0xFF00000000000000, 0xFF80000000000000, 0xFFC0000000000000, 0xFFE0000000000000,
  0xFFF0000000000000, 0xFFF8000000000000, 0xFFFC000000000000, 0xFFFE000000000000,
  0xFFFF000000000000, 0xFFFF800000000000, 0xFFFFC00000000000, 0xFFFFE00000000000,
  0xFFFFF00000000000, 0xFFFFF80000000000, 0xFFFFFC0000000000, 0xFFFFFE0000000000,
  0xFFFFFF0000000000, 0xFFFFFF8000000000, 0xFFFFFFC000000000, 0xFFFFFFE000000000,
  0xFFFFFFF000000000, 0xFFFFFFF800000000, 0xFFFFFFFC00000000, 0xFFFFFFFE00000000,
  0xFFFFFFFF00000000, 0xFFFFFFFF80000000, 0xFFFFFFFFC0000000, 0xFFFFFFFFE0000000,
  0xFFFFFFFFF0000000, 0xFFFFFFFFF8000000, 0xFFFFFFFFFC000000, 0xFFFFFFFFFE000000,
  0xFFFFFFFFFF000000, 0xFFFFFFFFFF800000, 0xFFFFFFFFFFC00000, 0xFFFFFFFFFFE00000,
  0xFFFFFFFFFFF00000, 0xFFFFFFFFFFF80000, 0xFFFFFFFFFFFC0000, 0xFFFFFFFFFFFE0000,
  0xFFFFFFFFFFFF0000, 0xFFFFFFFFFFFF8000, 0xFFFFFFFFFFFFC000, 0xFFFFFFFFFFFFE000,
  0xFFFFFFFFFFFFF000, 0xFFFFFFFFFFFFF800, 0xFFFFFFFFFFFFFC00, 0xFFFFFFFFFFFFFE00,
  0xFFFFFFFFFFFFFF00, 0xFFFFFFFFFFFFFF80, 0xFFFFFFFFFFFFFFC0, 0xFFFFFFFFFFFFFFE0,
  0xFFFFFFFFFFFFFFF0, 0xFFFFFFFFFFFFFFF8, 0xFFFFFFFFFFFFFFFC, 0xFFFFFFFFFFFFFFFE]

/-- `masks2`, include/mranisz/shared/rank.hpp: lines
351-357. -/
def masks32Table : List Nat := [
  0x00000000, 0x80000000, 0xC0000000, 0xE0000000, 0xF0000000, 0xF8000000, 0xFC000000, 0xFE000000,
  0xFF000000, 0xFF800000, 0xFFC00000, 0xFFE00000, 0xFFF00000, 0xFFF80000, 0xFFFC0000, 0xFFFE0000,
  0xFFFF0000, 0xFFFF8000, 0xFFFFC000, 0xFFFFE000, 0xFFFFF000, 0xFFFFF800, 0xFFFFFC00, 0xFFFFFE00,
  0xFFFFFF00, 0xFFFFFF80, 0xFFFFFFC0, 0xFFFFFFE0, 0xFFFFFFF0, 0xFFFFFFF8, 0xFFFFFFFC, 0xFFFFFFFE]

/-- `masks`, include/mranisz/shared/rank.hpp: lines
1086-1108. -/
def masksCF32Table : List Nat := [
  0x0000000000000000, 0x0000000080000000, 0x00000000C0000000, 0x00000000E0000000,
  0x00000000F0000000, 0x00000000F8000000, 0x00000000FC000000, 0x00000000FE000000,
  0x00000000FF000000, 0x00000000FF800000, 0x00000000FFC00000, 0x00000000FFE00000,
  0x00000000FFF00000, 0x00000000FFF80000, 0x00000000FFFC0000, 0x00000000FFFE0000,
  0x00000000FFFF0000, 0x00000000FFFF8000, 0x00000000FFFFC000, 0x00000000FFFFE000,
  0x00000000FFFFF000, 0x00000000FFFFF800, 0x00000000FFFFFC00, 0x00000000FFFFFE00,
  0x00000000FFFFFF00, 0x00000000FFFFFF80, 0x00000000FFFFFFC0, 0x00000000FFFFFFE0,
  0x00000000FFFFFFF0, 0x00000000FFFFFFF8, 0x00000000FFFFFFFC, 0x00000000FFFFFFFE,
  0x00000000FFFFFFFF, 0x80000000FFFFFFFF, 0xC0000000FFFFFFFF, 0xE0000000FFFFFFFF,
  0xF0000000FFFFFFFF, 0xF8000000FFFFFFFF, 0xFC000000FFFFFFFF, 0xFE000000FFFFFFFF,
  0xFF000000FFFFFFFF, 0xFF800000FFFFFFFF, 0xFFC00000FFFFFFFF, 0xFFE00000FFFFFFFF,
  0xFFF00000FFFFFFFF, 0xFFF80000FFFFFFFF, 0xFFFC0000FFFFFFFF, 0xFFFE0000FFFFFFFF,
  0xFFFF0000FFFFFFFF, 0xFFFF8000FFFFFFFF, 0xFFFFC000FFFFFFFF, 0xFFFFE000FFFFFFFF,
  0xFFFFF000FFFFFFFF, 0xFFFFF800FFFFFFFF, 0xFFFFFC00FFFFFFFF, 0xFFFFFE00FFFFFFFF,
  0xFFFFFF00FFFFFFFF, 0xFFFFFF80FFFFFFFF, 0xFFFFFFC0FFFFFFFF, 0xFFFFFFE0FFFFFFFF,
  0xFFFFFFF0FFFFFFFF, 0xFFFFFFF8FFFFFFFF, 0xFFFFFFFCFFFFFFFF, 0xFFFFFFFEFFFFFFFF]

/-- `masks`, include/mranisz/shared/rank.hpp: identical copies at lines
3165-3187, 4813-4835. -/
def masksLeTable : List Nat := [
  0x0000000000000000, 0x0000000000000080, 0x00000000000000C0, 0x00000000000000E0,
  0x00000000000000F0, 0x00000000000000F8, 0x00000000000000FC, 0x00000000000000FE,
  0x00000000000000FF, 0x00000000000080FF, 0x000000000000C0FF, 0x000000000000E0FF,
  0x000000000000F0FF, 0x000000000000F8FF, 0x000000000000FCFF, 0x000000000000FEFF,
  0x000000000000FFFF, 0x000000000080FFFF, 0x0000000000C0FFFF, 0x0000000000E0FFFF,
  0x0000000000F0FFFF, 0x0000000000F8FFFF, 0x0000000000FCFFFF, 0x0000000000FEFFFF,
  0x0000000000FFFFFF, 0x0000000080FFFFFF, 0x00000000C0FFFFFF, 0x00000000E0FFFFFF,
  0x00000000F0FFFFFF, 0x00000000F8FFFFFF, 0x00000000FCFFFFFF, 0x00000000FEFFFFFF,
  0x00000000FFFFFFFF, 0x00000080FFFFFFFF, 0x000000C0FFFFFFFF, 0x000000E0FFFFFFFF,
  0x000000F0FFFFFFFF, 0x000000F8FFFFFFFF, 0x000000FCFFFFFFFF, 0x000000FEFFFFFFFF,
  0x000000FFFFFFFFFF, 0x000080FFFFFFFFFF, 0x0000C0FFFFFFFFFF, 0x0000E0FFFFFFFFFF,
  0x0000F0FFFFFFFFFF, 0x0000F8FFFFFFFFFF, 0x0000FCFFFFFFFFFF, 0x0000FEFFFFFFFFFF,
  0x0000FFFFFFFFFFFF, 0x0080FFFFFFFFFFFF, 0x00C0FFFFFFFFFFFF, 0x00E0FFFFFFFFFFFF,
  0x00F0FFFFFFFFFFFF, 0x00F8FFFFFFFFFFFF, 0x00FCFFFFFFFFFFFF, 0x00FEFFFFFFFFFFFF,
  0x00FFFFFFFFFFFFFF, 0x80FFFFFFFFFFFFFF, 0xC0FFFFFFFFFFFFFF, 0xE0FFFFFFFFFFFFFF,
  0xF0FFFFFFFFFFFFFF, 0xF8FFFFFFFFFFFFFF, 0xFCFFFFFFFFFFFFFF, 0xFEFFFFFFFFFFFFFF]

/-- `masks2`, include/mranisz/shared/rank.hpp: identical copies at lines
3189-3211, 4837-4859. -/
def masks2Table : List Nat := [
  0x8000000000000000, 0x4000000000000000, 0x2000000000000000, 0x1000000000000000,
  0x0800000000000000, 0x0400000000000000, 0x0200000000000000, 0x0100000000000000,
  0x0080000000000000, 0x0040000000000000, 0x0020000000000000, 0x0010000000000000,
  0x0008000000000000, 0x0004000000000000, 0x0002000000000000, 0x0001000000000000,
  0x0000800000000000, 0x0000400000000000, 0x0000200000000000, 0x0000100000000000,
  0x0000080000000000, 0x0000040000000000, 0x0000020000000000, 0x0000010000000000,
  0x0000008000000000, 0x0000004000000000, 0x0000002000000000, 0x0000001000000000,
  0x0000000800000000, 0x0000000400000000, 0x0000000200000000, 0x0000000100000000,
  0x0000000080000000, 0x0000000040000000, 0x0000000020000000, 0x0000000010000000,
  0x0000000008000000, 0x0000000004000000, 0x0000000002000000, 0x0000000001000000,
  0x0000000000800000, 0x0000000000400000, 0x0000000000200000, 0x0000000000100000,
  0x0000000000080000, 0x0000000000040000, 0x0000000000020000, 0x0000000000010000,
  0x0000000000008000, 0x0000000000004000, 0x0000000000002000, 0x0000000000001000,
  0x0000000000000800, 0x0000000000000400, 0x0000000000000200, 0x0000000000000100,
  0x0000000000000080, 0x0000000000000040, 0x0000000000000020, 0x0000000000000010,
  0x0000000000000008, 0x0000000000000004, 0x0000000000000002, 0x0000000000000001]

/-- `masks3`, include/mranisz/shared/rank.hpp: identical copies at lines
3213-3235, 4861-4883. -/
def masks3Table : List Nat := [
  0x0000000000000000, 0x8000000000000000, 0xC000000000000000, 0xE000000000000000,
  0xF000000000000000, 0xF800000000000000, 0xFC00000000000000, 0xFE00000000000000,
  0xFF00000000000000, 0xFF80000000000000, 0xFFC0000000000000, 0xFFE0000000000000,
  0xFFF0000000000000, 0xFFF8000000000000, 0xFFFC000000000000, 0xFFFE000000000000,
  0xFFFF000000000000, 0xFFFF800000000000, 0xFFFFC00000000000, 0xFFFFE00000000000,
  0xFFFFF00000000000, 0xFFFFF80000000000, 0xFFFFFC0000000000, 0xFFFFFE0000000000,
  0xFFFFFF0000000000, 0xFFFFFF8000000000, 0xFFFFFFC000000000, 0xFFFFFFE000000000,
  0xFFFFFFF000000000, 0xFFFFFFF800000000, 0xFFFFFFFC00000000, 0xFFFFFFFE00000000,
  0xFFFFFFFF00000000, 0xFFFFFFFF80000000, 0xFFFFFFFFC0000000, 0xFFFFFFFFE0000000,
  0xFFFFFFFFF0000000, 0xFFFFFFFFF8000000, 0xFFFFFFFFFC000000, 0xFFFFFFFFFE000000,
  0xFFFFFFFFFF000000, 0xFFFFFFFFFF800000, 0xFFFFFFFFFFC00000, 0xFFFFFFFFFFE00000,
  0xFFFFFFFFFFF00000, 0xFFFFFFFFFFF80000, 0xFFFFFFFFFFFC0000, 0xFFFFFFFFFFFE0000,
  0xFFFFFFFFFFFF0000, 0xFFFFFFFFFFFF8000, 0xFFFFFFFFFFFFC000, 0xFFFFFFFFFFFFE000,
  0xFFFFFFFFFFFFF000, 0xFFFFFFFFFFFFF800, 0xFFFFFFFFFFFFFC00, 0xFFFFFFFFFFFFFE00,
  0xFFFFFFFFFFFFFF00, 0xFFFFFFFFFFFFFF80, 0xFFFFFFFFFFFFFFC0, 0xFFFFFFFFFFFFFFE0,
  0xFFFFFFFFFFFFFFF0, 0xFFFFFFFFFFFFFFF8, 0xFFFFFFFFFFFFFFFC, 0xFFFFFFFFFFFFFFFE]

/-- `popcntLUT`, include/mranisz/shared/select.hpp: identical copies at lines
507-518, 1212-1223, 2703-2714, 4341-4352. -/
def popcntTable : List Nat := [
  0, 1, 1, 2, 1, 2, 2, 3, 1, 2, 2, 3, 2, 3, 3, 4, 1, 2, 2, 3, 2, 3, 3, 4, 2, 3, 3, 4, 3, 4, 4, 5,
  1, 2, 2, 3, 2, 3, 3, 4, 2, 3, 3, 4, 3, 4, 4, 5, 2, 3, 3, 4, 3, 4, 4, 5, 3, 4, 4, 5, 4, 5, 5, 6,
  1, 2, 2, 3, 2, 3, 3, 4, 2, 3, 3, 4, 3, 4, 4, 5, 2, 3, 3, 4, 3, 4, 4, 5, 3, 4, 4, 5, 4, 5, 5, 6,
  2, 3, 3, 4, 3, 4, 4, 5, 3, 4, 4, 5, 4, 5, 5, 6, 3, 4, 4, 5, 4, 5, 5, 6, 4, 5, 5, 6, 5, 6, 6, 7,
  1, 2, 2, 3, 2, 3, 3, 4, 2, 3, 3, 4, 3, 4, 4, 5, 2, 3, 3, 4, 3, 4, 4, 5, 3, 4, 4, 5, 4, 5, 5, 6,
  2, 3, 3, 4, 3, 4, 4, 5, 3, 4, 4, 5, 4, 5, 5, 6, 3, 4, 4, 5, 4, 5, 5, 6, 4, 5, 5, 6, 5, 6, 6, 7,
  2, 3, 3, 4, 3, 4, 4, 5, 3, 4, 4, 5, 4, 5, 5, 6, 3, 4, 4, 5, 4, 5, 5, 6, 4, 5, 5, 6, 5, 6, 6, 7,
  3, 4, 4, 5, 4, 5, 5, 6, 4, 5, 5, 6, 5, 6, 6, 7, 4, 5, 5, 6, 5, 6, 6, 7, 5, 6, 6, 7, 6, 7, 7, 8]

end MRS.Mran
