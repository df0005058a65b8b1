import Verif.Regs.Model
/-!
# The registers of the machines

The names by DWARF number, as the ABI of each machine gives them; an empty name is a gap.
-/
namespace Verif.Regs.Spec
open Verif

/-- `n` names that differ in their number, from `a` on. -/
def file (p : List Char) (a n : Nat) : List (List Char) := (List.range n).map fun i => p ++ Nat.toDigits 10 (a + i)

/-- Gaps. -/
def gap (n : Nat) : List (List Char) := List.replicate n []

/-- The registers of a machine. -/
def regs : Machine → List (List Char)
  | .x86_64 =>
    [['r', 'a', 'x'], ['r', 'd', 'x'], ['r', 'c', 'x'], ['r', 'b', 'x'], ['r', 's', 'i'], ['r', 'd', 'i'], ['r', 'b', 'p'], ['r', 's', 'p']] ++ file ['r'] 8 8 ++ [['r', 'i', 'p']] ++ file ['x', 'm', 'm'] 0 16 ++ file ['s', 't'] 0 8 ++ file ['m', 'm'] 0 8 ++ [['r', 'f', 'l', 'a', 'g', 's'], ['e', 's'], ['c', 's'], ['s', 's'], ['d', 's'], ['f', 's'], ['g', 's'], [], [], ['f', 's', '.', 'b', 'a', 's', 'e'], ['g', 's', '.', 'b', 'a', 's', 'e'], [], [], ['t', 'r'], ['l', 'd', 't', 'r'], ['m', 'x', 'c', 's', 'r'], ['f', 'c', 'w'], ['f', 's', 'w']]
  | .i386 =>
    [['e', 'a', 'x'], ['e', 'c', 'x'], ['e', 'd', 'x'], ['e', 'b', 'x'], ['e', 's', 'p'], ['e', 'b', 'p'], ['e', 's', 'i'], ['e', 'd', 'i'], ['e', 'i', 'p'], ['e', 'f', 'l', 'a', 'g', 's'], ['t', 'r', 'a', 'p', 'n', 'o']] ++ file ['s', 't'] 0 8 ++ gap 2 ++ file ['x', 'm', 'm'] 0 8 ++ file ['m', 'm'] 0 8 ++ [['f', 'c', 't', 'r', 'l'], ['f', 's', 't', 'a', 't'], ['m', 'x', 'c', 's', 'r'], ['e', 's'], ['c', 's'], ['s', 's'], ['d', 's'], ['f', 's'], ['g', 's']]
  | .arm =>
    file ['r'] 0 13 ++ [['s', 'p'], ['l', 'r'], ['p', 'c']] ++ file ['f'] 0 8 ++ gap 72 ++ file ['f'] 0 8 ++ gap 24 ++ [['s', 'p', 's', 'r']] ++ gap 127 ++ file ['d'] 0 32 ++ gap 32
  | .aarch64 =>
    file ['x'] 0 31 ++ [['s', 'p'], [], ['e', 'l', 'r']] ++ gap 30 ++ file ['v'] 0 32 ++ gap 32
  | .s390 _ =>
    file ['r'] 0 16 ++ [['f', '0'], ['f', '2'], ['f', '4'], ['f', '6'], ['f', '1'], ['f', '3'], ['f', '5'], ['f', '7'], ['f', '8'], ['f', '1', '0'], ['f', '1', '2'], ['f', '1', '4'], ['f', '9'], ['f', '1', '1'], ['f', '1', '3'], ['f', '1', '5']] ++ file ['c'] 0 16 ++ file ['a'] 0 16 ++ [['p', 's', 'w', 'm'], ['p', 's', 'w', 'a']]
  | .riscv _ =>
    [['z', 'e', 'r', 'o'], ['r', 'a'], ['s', 'p'], ['g', 'p'], ['t', 'p']] ++ file ['t'] 0 3 ++ file ['s'] 0 2 ++ file ['a'] 0 8 ++ file ['s'] 2 10 ++ file ['t'] 3 4 ++ file ['f', 't'] 0 8 ++ file ['f', 's'] 0 2 ++ file ['f', 'a'] 0 8 ++ file ['f', 's'] 2 10 ++ file ['f', 't'] 8 4
  | .bpf =>
    file ['r'] 0 11
  | .alpha =>
    [['v', '0']] ++ file ['t'] 0 8 ++ file ['s'] 0 7 ++ file ['a'] 0 6 ++ file ['t'] 8 4 ++ [['r', 'a'], ['t', '1', '2'], ['a', 't'], ['g', 'p'], ['s', 'p'], ['z', 'e', 'r', 'o']] ++ file ['f'] 0 31 ++ [['f', 'p', 'c', 'r'], ['p', 'c'], [], ['u', 'n', 'i', 'q', 'u', 'e']]
  | .ppc b =>
    file ['r'] 0 32 ++ file ['f'] 0 32 ++ [['c', 'r'], ['f', 'p', 's', 'c', 'r'], ['m', 's', 'r'], ['v', 's', 'c', 'r'], [], []] ++ file ['s', 'r'] 0 16 ++ gap 14 ++ [if b then ['s', 'p', 'r', '0'] else ['m', 'q']] ++ [['x', 'e', 'r']] ++ file ['s', 'p', 'r'] 2 6 ++ [['l', 'r'], ['c', 't', 'r']] ++ file ['s', 'p', 'r'] 10 4 ++ [['t', 'f', 'h', 'a', 'r'], ['t', 'f', 'i', 'a', 'r'], ['t', 'e', 'x', 'a', 's', 'r']] ++ file ['s', 'p', 'r'] 17 1 ++ [['d', 's', 'i', 's', 'r'], ['d', 'a', 'r']] ++ file ['s', 'p', 'r'] 20 2 ++ [['d', 'e', 'c']] ++ file ['s', 'p', 'r'] 23 233 ++ [['v', 'r', 's', 'a', 'v', 'e']] ++ file ['s', 'p', 'r'] 257 255 ++ [['s', 'p', 'e', 'f', 's', 'c', 'r']] ++ file ['s', 'p', 'r'] 513 387 ++ gap 124 ++ file ['v', 'r'] 0 32
  | .sparc b =>
    file ['g'] 0 8 ++ file ['o'] 0 8 ++ file ['l'] 0 8 ++ file ['i'] 0 8 ++ file ['f'] 0 32 ++
      (if b then (List.range 16).map (fun i => 'f' :: Nat.toDigits 10 (32 + 2 * i)) ++ [['p', 'c'], ['n', 'p', 'c'], ['s', 't', 'a', 't', 'e'], ['f', 's', 'r'], ['f', 'p', 'r', 's'], ['y']]
       else [['y'], ['p', 's', 'r'], ['w', 'i', 'm'], ['t', 'b', 'r'], ['p', 'c'], ['n', 'p', 'c'], ['f', 's', 'r'], ['c', 's', 'r']])
  | .sh =>
    file ['r'] 0 16 ++ [['p', 'c'], ['p', 'r'], ['s', 'r'], ['g', 'b', 'r'], ['m', 'a', 'c', 'h'], ['m', 'a', 'c', 'l'], [], ['f', 'p', 'u', 'l'], ['f', 'p', 's', 'c', 'r']] ++ file ['f', 'r'] 0 16 ++ gap 46 ++ file ['x', 'f'] 0 16
  | .m68k =>
    file ['d'] 0 8 ++ file ['a'] 0 8 ++ file ['f', 'p'] 0 8 ++ [['p', 'c']]
  | .tilegx =>
    file ['r'] 0 53 ++ [['t', 'p'], ['s', 'p'], ['l', 'r'], ['s', 'n'], ['i', 'd', 'n', '0'], ['i', 'd', 'n', '1'], ['u', 'd', 'n', '0'], ['u', 'd', 'n', '1'], ['u', 'd', 'n', '2'], ['u', 'd', 'n', '3'], ['z', 'e', 'r', 'o'], ['p', 'c']]
  | .ia64 =>
    file ['r'] 0 128 ++ file ['f'] 0 128 ++ gap 64 ++ file ['b'] 0 8 ++ [['v', 'f', 'p'], ['v', 'r', 'a', 'p'], ['p', 'r'], ['i', 'p'], ['p', 's', 'r'], ['c', 'f', 'm']] ++ file ['k', 'r'] 0 8 ++
      file ['a', 'r'] 8 8 ++ [['r', 's', 'c'], ['b', 's', 'p'], ['b', 's', 'p', 's', 't', 'o', 'r', 'e'], ['r', 'n', 'a', 't']] ++ file ['a', 'r'] 20 1 ++ [['f', 'c', 'r']] ++ file ['a', 'r'] 22 2 ++ [['e', 'f', 'l', 'a', 'g'], ['c', 's', 'd'], ['s', 's', 'd'], ['c', 'f', 'l', 'g'], ['f', 's', 'r'], ['f', 'i', 'r'], ['f', 'd', 'r']] ++ file ['a', 'r'] 31 1 ++ [['c', 'c', 'v']] ++ file ['a', 'r'] 33 3 ++ [['u', 'n', 'a', 't']] ++ file ['a', 'r'] 37 3 ++ [['f', 'p', 's', 'r']] ++ file ['a', 'r'] 41 3 ++ [['i', 't', 'c']] ++ file ['a', 'r'] 45 19 ++ [['p', 'f', 's'], ['l', 'c'], ['e', 'c']] ++ file ['a', 'r'] 67 61 ++
      file ['n', 'a', 't'] 0 128 ++ [['b', 'o', 'f']] ++ gap 96 ++ file ['p'] 0 64

/-- The codes of the characters of a name. -/
def codes (s : List Char) : List Nat := s.map Char.toNat

/-- The part of a name before its number. -/
def stem (s : List Nat) : List Nat := s.takeWhile fun x => decide (x < 48 ∨ 57 < x)

end Verif.Regs.Spec
