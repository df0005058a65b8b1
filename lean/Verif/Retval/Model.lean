import Verif.Types.Model
/-!
# Where functions return their values on x86_64 (backends/x86_64_retval.c, backends/libebl_CPU.h:58-74)

The functions that read DIEs are parameters as in `Verif.Types`.
-/
namespace Verif.Retval
open Verif Verif.Types

/-- The operations that are used: `DW_OP_reg0` and so on and `DW_OP_regx`; `DW_OP_piece`; `DW_OP_breg0` with offset 0. -/
inductive Op where
  | reg (n : Nat)
  | piece (n : Nat)
  | breg0
deriving DecidableEq, Repr

/-- The result: operations, or -1, or -2; `ub` is as in `Res`. -/
inductive Out where
  | ops (l : List Op)
  | err
  | weird
  | ub
deriving DecidableEq, Repr

/-- backends/x86_64_retval.c:40-47. -/
def intreg : List Op := [.reg 0, .piece 8, .reg 1, .piece 8]

/-- backends/x86_64_retval.c:49-58. -/
def x87reg : List Op := [.reg 33, .piece 10, .reg 34, .piece 10]

/-- backends/x86_64_retval.c:60-67. -/
def ssereg : List Op := [.reg 17, .piece 16, .reg 18, .piece 16]

/-- The labels `intreg` and `large`, backends/x86_64_retval.c:158-167. -/
def intLoc (size : Nat) : Out :=
  if size ≤ 8 then .ops (intreg.take 1)
  else if size ≤ 16 then .ops intreg
  else .ops [.breg0]

/-- Types that are not aggregates, backends/x86_64_retval.c:107-167. -/
def scalar (api : Api) (d tag : Nat) : Out :=
  let size := match udataOf api (attrIntegrate api d 0x0b) with
    | .ok n => some n
    | _ => if tag = 0x0f ∨ tag = 0x1f then some 8 else none
  match size with
  | none => .err
  | some size =>
    if tag = 0x24 then
      match udataOf api (attrIntegrate api d 0x3e) with
      | .ok enc =>
        if enc = 3 then
          if size = 4 * 2 ∨ size = 8 * 2 then .ops ssereg
          else if size = 16 * 2 then .ops x87reg
          else .weird
        else if enc = 4 then
          if size = 4 ∨ size = 8 then .ops (ssereg.take 1)
          else if size = 16 then .ops (x87reg.take 1)
          else .weird
        else intLoc size
      | _ => .err
    else intLoc size

/-- The switch over the tag, backends/x86_64_retval.c:91-193. -/
def locOf (api : Api) (fuel d : Nat) : Out :=
  let tag := api.tag d
  if tag = 0x21 ∧ attrIntegrate api d 0x0b = none then
    match typeRef api d with
    | none => .err
    | some e => scalar api e (api.tag e)
  else if tag ∈ [0x21, 0x24, 0x04, 0x0f, 0x1f] then scalar api d tag
  else if tag ∈ [0x13, 0x02, 0x17, 0x01] then
    match aggregateSize api fuel d with
    | .ok size => intLoc size
    | .err => .ops [.breg0]
    | .ub => .ub
  else .weird

/-- `x86_64_return_value_location`, backends/x86_64_retval.c:80-193, with `dwarf_peeled_die_type`, backends/libebl_CPU.h:58-74. -/
def returnValue (api : Api) (fuel f : Nat) : Out :=
  match attrIntegrate api f 0x49 with
  | none => .ops []
  | some a =>
    match api.ref a with
    | none => .err
    | some t =>
      match peelType api t with
      | .ok (some d) => locOf api fuel d
      | .ub => .ub
      | _ => .err

end Verif.Retval
