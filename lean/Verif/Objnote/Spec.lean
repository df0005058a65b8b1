import Verif.Objnote.Model
/-!
# What notes of object files say
-/
namespace Verif.Objnote.Spec

/-- A property: type, data, and the bytes between its data and the next one. -/
structure Property where
  type : Nat
  data : List Byte
  pad : List Byte

/-- A number in four bytes. -/
def word (e : Endian) (v : Nat) : List Byte := bytesOf e 4 v

/-- The bytes of a property. -/
def Property.bytes (e : Endian) (q : Property) : List Byte := word e q.type ++ word e q.data.length ++ q.data ++ q.pad

/-- Properties as they are in notes: the next one starts at a multiple of the size of an address. -/
def Property.ok (env : Env) (q : Property) : Prop :=
  q.type < 2 ^ 32 ∧ (q.data ++ q.pad).length % env.addr = 0 ∧ q.pad.length < env.addr

/-- What is to be shown for a property. -/
def show_ (env : Env) (q : Property) : Item :=
  if q.type = 1 then if q.data.length = env.addr then .stack (valOf env.end_ q.data) else .stackBad q.data.length
  else if q.type = 2 then if q.data = [] then .noCopy else .noCopyBad q.data.length
  else if 0xc0000000 ≤ q.type ∧ q.type < 0xe0000000 then
    if env.isX86 then
      if q.type = 0xc0000002 then
        if q.data.length = 4 then
          .x86Feature (valOf env.end_ q.data) ((valOf env.end_ q.data).testBit 0) ((valOf env.end_ q.data).testBit 1)
            (decide (4 ≤ valOf env.end_ q.data))
        else .x86FeatureBad q.data.length
      else .x86 q.type q.data
    else .proc q.type q.data
  else if 0xe0000000 ≤ q.type then .app q.type q.data
  else .unknown q.type q.data

end Verif.Objnote.Spec
