import Verif.Base
/-!
# Prime table sizes (lib/next_prime.c)

`size_t` arithmetic is modulo 2^64.  The loops take a fuel argument; `none` means that the loop
has not ended yet, so that termination is a theorem and not an artefact.
-/
namespace Verif.Prime

/-- Number of values of `size_t`. -/
def W : Nat := 2 ^ 64

/-- The loop of `is_prime`, lib/next_prime.c:41-51. -/
def isPrimeLoop (candidate : Nat) : Nat → Nat → Nat → Option Bool
  | 0, _, _ => none
  | fuel + 1, divn, sq =>
    if sq < candidate ∧ candidate % divn ≠ 0 then
      let oldSq := sq
      let divn := (divn + 1) % W
      let sq := (sq + 4 * divn) % W
      if sq < oldSq then some true
      else isPrimeLoop candidate fuel ((divn + 1) % W) sq
    else some (decide (candidate % divn ≠ 0))

/-- `is_prime`, lib/next_prime.c:34-52. -/
def isPrime (fuel candidate : Nat) : Option Bool :=
  let divn := 3
  let sq := divn * divn
  isPrimeLoop candidate fuel divn sq

/-- The loop of `next_prime`, lib/next_prime.c:62-65. -/
def nextPrimeLoop (inner : Nat) : Nat → Nat → Option Nat
  | 0, _ => none
  | fuel + 1, seed =>
    match isPrime inner seed with
    | none => none
    | some true => some seed
    | some false => nextPrimeLoop inner fuel ((seed + 2) % W)

/-- `next_prime`, lib/next_prime.c:56-66; `seed |= 1` makes the number odd. -/
def nextPrime (inner fuel seed : Nat) : Option Nat := nextPrimeLoop inner fuel (seed ||| 1)

end Verif.Prime
