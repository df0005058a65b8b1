/-!
# Shared base of the model

Bytes, buffers and the outcome type used throughout the model.
-/
namespace Verif

/-- A byte of memory (`unsigned char`). -/
abbrev Byte := BitVec 8

/-- Outcome of a modelled C function.  `ok` is a normal return, `err` the
documented error return of the API, `ub` undefined behaviour of the C program
(out-of-bounds access, failed assertion, invalid shift, ...). -/
inductive Res (α : Type) where
  | ok (a : α)
  | err
  | ub
deriving DecidableEq, Repr

namespace Res

def bind {α β : Type} (r : Res α) (f : α → Res β) : Res β :=
  match r with
  | ok a => f a
  | err => err
  | ub => ub

instance : Monad Res where
  pure := Res.ok
  bind := Res.bind

@[simp] theorem pure_eq {α} (a : α) : (pure a : Res α) = .ok a := rfl
@[simp] theorem bind_ok {α β} (a : α) (f : α → Res β) : (Res.ok a >>= f) = f a := rfl
@[simp] theorem bind_err {α β} (f : α → Res β) : ((Res.err : Res α) >>= f) = .err := rfl
@[simp] theorem bind_ub {α β} (f : α → Res β) : ((Res.ub : Res α) >>= f) = .ub := rfl

/-- The outcome is not undefined behaviour. -/
def safe {α} : Res α → Prop
  | ub => False
  | _ => True

@[simp] theorem safe_ok {α} (a : α) : (Res.ok a).safe ↔ True := Iff.rfl
@[simp] theorem safe_err {α} : (Res.err : Res α).safe ↔ True := Iff.rfl
@[simp] theorem safe_ub {α} : (Res.ub : Res α).safe ↔ False := Iff.rfl

theorem bind_eq_ok {α β} {r : Res α} {f : α → Res β} {b : β} :
    (r >>= f) = .ok b ↔ ∃ a, r = .ok a ∧ f a = .ok b := by
  cases r <;> simp

end Res

/-- Read one byte of a buffer; reading outside the buffer is undefined. -/
def rd (buf : List Byte) (i : Nat) : Res Byte :=
  match buf[i]? with
  | some b => .ok b
  | none => .ub

theorem rd_lt {buf : List Byte} {i : Nat} (h : i < buf.length) : rd buf i = .ok buf[i] := by
  simp [rd, h]

theorem rd_ge {buf : List Byte} {i : Nat} (h : buf.length ≤ i) : rd buf i = .ub := by
  simp [rd, h]

theorem rd_eq_ok {buf : List Byte} {i : Nat} {b : Byte} :
    rd buf i = .ok b ↔ buf[i]? = some b := by
  unfold rd
  cases buf[i]? <;> simp

/-- Byte order of an ELF/DWARF file (`EI_DATA`). -/
inductive Endian where
  | little
  | big
deriving DecidableEq, Repr

end Verif
