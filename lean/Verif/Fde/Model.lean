import Verif.NextCfi.Model
/-!
# Finding frame description entries (libdw/fde.c, libdw/cie.c, libdw/dwarf_getcfi_elf.c)
-/
namespace Verif.Fde
open Verif Verif.Mem Verif.Enc Verif.Cfi Verif.NextCfi

/-! ## The search table of .eh_frame_hdr -/

/-- The search table: the readable bytes from its start on, the size that is used for the checks (`search_table_len`,
the size of the whole section, libdw/dwarf_getcfi_elf.c:183 and 242), ELF class, byte order, the address of the section,
the encoding and the number of entries. -/
structure Table where
  mem : List Byte
  claimed : Nat
  is32 : Bool
  other : Bool
  vaddr : Nat
  enc : Nat
  entries : Nat
deriving DecidableEq, Repr

/-- `dummy_cfi` of `binary_search_fde`, libdw/fde.c:183-196.  The bytes behind the readable ones are only a filler: a
read that touches them is undefined, see `readTable`.  `other_byte_order` is not set, so values of two bytes are read in
host order; the other widths look at `e_ident`. -/
def Table.cache (t : Table) : Cache :=
  { buf := t.mem ++ List.replicate (t.claimed - t.mem.length) 0#8, is32 := t.is32,
    other := if t.enc % 8 = 2 then false else t.other, vaddr := t.vaddr, textrel := 0, datarel := t.vaddr }

/-- `read_encoded_value` (libdw/encoded-value.h:109-228) from the table. -/
def readTable (t : Table) (pos : Nat) : Res (Nat × Nat) := do
  let b ← base t.cache t.enc pos
  let v ← value t.cache t.enc b.2
  if v.2 > t.mem.length then .ub
  else if t.enc / 128 % 2 = 1 then do
    let d ← deref t.cache ((b.1 + v.1) % 2 ^ 64)
    if (b.1 + v.1) % 2 ^ 64 - t.vaddr + t.cache.addrSize > t.mem.length then .ub else pure (d, v.2)
  else pure ((b.1 + v.1) % 2 ^ 64, v.2)

/-- The size of an entry, libdw/fde.c:177-179. -/
def entrySize (t : Table) : Nat := 2 * nullSize t.cache t.enc

/-- The loop of `binary_search_fde`, libdw/fde.c:198-240; an error while reading ends the search.  `none` is
`(Dwarf_Off) -1l`, otherwise the address of the FDE. -/
def searchLoop (t : Table) (address : Nat) : Nat → Nat → Nat → Res (Option Nat)
  | 0, _, _ => .ub
  | fuel + 1, l, u =>
    if l < u then
      let idx := (l + u) / 2
      match readTable t (idx * entrySize t) with
      | .ub => .ub
      | .err => pure none
      | .ok (start, p) =>
        if address < start then searchLoop t address fuel l idx
        else match readTable t p with
          | .ub => .ub
          | .err => pure none
          | .ok (fde, p) =>
            if idx + 1 < t.entries then
              match readTable t p with
              | .ub => .ub
              | .err => pure none
              | .ok (stop, _) => if address ≥ stop then searchLoop t address fuel (idx + 1) u else pure (some fde)
            else pure (some fde)
    else pure none

/-- `binary_search_fde`, libdw/fde.c:174-243: the offset of the FDE in a section at `frameVaddr`; `none` is the offset
-1. -/
def binarySearch (t : Table) (frameVaddr address : Nat) : Res (Option Nat) :=
  if entrySize t = 0 then pure none
  else do
    let r ← searchLoop t address (t.entries + 1) 0 t.entries
    match r with
    | none => pure none
    | some f =>
      let o := (f + 2 ^ 64 - frameVaddr) % 2 ^ 64
      pure (if o = 2 ^ 64 - 1 then none else some o)

/-- `dummy_cfi` of `parse_eh_frame_hdr`, libdw/dwarf_getcfi_elf.c:92-104, has no `other_byte_order`: values of two bytes
are read in host order; the other widths look at `e_ident`. -/
def hostTwo (c : Cache) (enc : Nat) : Cache := { c with other := if enc % 8 = 2 then false else c.other }

/-- `parse_eh_frame_hdr`, libdw/dwarf_getcfi_elf.c:72-123: the address of .eh_frame, and the position, the number of
entries and the encoding of the search table if there is one. -/
def parseHdr (c : Cache) : Res (Nat × Option (Nat × Nat × Nat)) :=
  if c.buf.length < 4 then .err
  else do
    let v ← rd c.buf 0
    if v ≠ 1#8 then .err
    else do
      let pe ← rd c.buf 1
      let ce ← rd c.buf 2
      let te ← rd c.buf 3
      if pe.toNat = 0xff then .err
      else do
        let p ← readEncoded (hostTwo c pe.toNat) pe.toNat 4
        if ce.toNat ≠ 0xff then do
          let n ← readEncoded (hostTwo c ce.toNat) ce.toNat p.2
          if n.1 ≠ 0 ∧ te.toNat ≠ 0xff ∧ te.toNat ≠ 1 ∧ te.toNat ≠ 9 then pure (p.1, some (n.2, n.1, te.toNat))
          else pure (p.1, none)
        else pure (p.1, none)

/-- The use of the header in `getcfi_scn_eh_frame`, libdw/dwarf_getcfi_elf.c:214-267, for a section `hdr` at `vaddr`
and .eh_frame at `frame`: `none` is a CFI without search table. -/
def openHdr (hdr : List Byte) (is32 other : Bool) (vaddr frame : Nat) : Res (Option Table) :=
  match parseHdr ⟨hdr, is32, other, vaddr, 0, vaddr⟩ with
  | .ub => .ub
  | .err => .err
  | .ok (_, none) => pure none
  | .ok (fv, some (pos, n, enc)) =>
    let t : Table := ⟨hdr.drop pos, hdr.length, is32, other, vaddr, enc, n⟩
    if entrySize t = 0 ∨ n > (hdr.length - pos) / (entrySize t / 2) / 2 then .err
    else if fv ≠ frame then pure none
    else pure (some t)

/-! ## The cache of entries -/

/-- `struct dwarf_cie`, libdw/cfi.h:37-58, without the initial state. -/
structure CieC where
  offset : Nat
  caf : Nat
  daf : Nat
  ra : Nat
  augSize : Nat
  enc : Nat
  lsda : Nat
  sized : Bool
  sigf : Bool
  start : Nat
  stop : Nat
deriving DecidableEq, Repr

/-- `struct dwarf_fde`, libdw/cfi.h:61-71. -/
structure Fde where
  cie : CieC
  start : Nat
  stop : Nat
  instrs : Nat
  instrsEnd : Nat
deriving DecidableEq, Repr

/-- The encoding of the LSDA pointer, libdw/cie.c:90-97. -/
def withLsda (c : Cache) (k : CieC) (e : Nat) : CieC :=
  { k with lsda := e, augSize := if k.sized then k.augSize else k.augSize + nullSize c e }

/-- The loop over the augmentation string in `intern_new_cie`, libdw/cie.c:76-117. -/
def augParse (c : Cache) : List Byte → Nat → CieC → Res CieC
  | [], _, k => pure k
  | x :: xs, p, k =>
    if x = 122#8 then augParse c xs p { k with sized := true }
    else if x = 83#8 then augParse c xs p { k with sigf := true }
    else if x = 76#8 then do
      let e ← rd c.buf p
      augParse c xs (p + 1) (withLsda c k e.toNat)
    else if x = 82#8 then do
      let e ← rd c.buf p
      augParse c xs (p + 1) { k with enc := e.toNat }
    else if x = 80#8 then do
      let e ← rd c.buf p
      augParse c xs (p + 1 + valueSize c e.toNat (p + 1)) k
    else if k.sized then augParse c xs p k
    else pure k

/-- A NUL-terminated string whose end `dwarf_next_cfi` has found. -/
def strAt (buf : List Byte) (pos : Nat) : List Byte := (buf.drop pos).takeWhile (· ≠ 0#8)

/-- `intern_new_cie` without the insertion, libdw/cie.c:53-155. -/
def newCie (c : Cache) (offset : Nat) (x : NextCfi.Cie) : Res CieC := do
  let k ← augParse c (strAt c.buf x.aug) x.augData ⟨offset, x.caf, x.daf, x.ra, 0, 0, 0xff, false, false, x.start, x.stop⟩
  pure (if k.enc % 16 = 0 then { k with enc := k.enc + (if c.is32 then 3 else 4) } else k)

/-- The caches of `struct Dwarf_CFI_s`, libdw/cfi.h:75-121: trees are lists of their entries. -/
structure St where
  cies : List CieC
  fdes : List Fde
  next : Nat
deriving DecidableEq, Repr

/-- `tfind` and `tsearch` with `compare_fde` (libdw/fde.c:39-63) on the entries of the tree.  What is found among
overlapping entries depends on the shape of the tree, so the functions are arbitrary up to `TreeOk`. -/
structure Tree where
  find : List Fde → Nat → Option Fde
  clash : List Fde → Fde → Option Fde

/-- `tfind` returns an entry that covers the address, and finds it if the entries are disjoint.  `tsearch` returns an
old entry exactly if one starts inside the new one: the tree is ordered by the start (libdw/fde.c:53-60). -/
structure TreeOk (t : Tree) : Prop where
  find_mem : ∀ l a f, t.find l a = some f → f ∈ l ∧ f.start ≤ a ∧ a < f.stop
  find_all : ∀ l a f, l.Pairwise (fun f g => f.stop ≤ g.start ∨ g.stop ≤ f.start) → f ∈ l → f.start ≤ a → a < f.stop →
    ∃ g, t.find l a = some g
  clash_mem : ∀ l f g, t.clash l f = some g → g ∈ l ∧ f.start ≤ g.start ∧ g.start < f.stop
  clash_all : ∀ l f g, g ∈ l → f.start ≤ g.start → g.start < f.stop → ∃ h, t.clash l f = some h

/-- The outcomes of functions that return NULL, -1 or a pointer. -/
inductive Out (α : Type)
  | null
  | bad
  | got (a : α)
deriving DecidableEq, Repr

/-- `dwarf_next_cfi` with `*next_off`: the value stored there if the call fails, libdw/dwarf_next_cfi.c:98. -/
def nextOnError (c : Cache) (off : Nat) : Nat :=
  match header c off with
  | .ok (some h) => h.next
  | _ => off

/-- `__libdw_find_cie`, libdw/cie.c:158-184; `none` is NULL. -/
def findCie (c : Cache) (eh : Bool) (st : St) (offset : Nat) : Res (Option CieC × St) :=
  match st.cies.find? (fun k => k.offset = offset) with
  | some k => pure (some k, st)
  | none =>
    match nextCfi c eh offset with
    | .ub => .ub
    | .err => pure (none, st)
    | .ok none => pure (none, st)
    | .ok (some (.fde _ _ _, _)) => pure (none, st)
    | .ok (some (.cie x, next)) => do
      let k ← newCie c offset x
      pure (some k, ⟨st.cies ++ [k], st.fdes, if st.next = offset then next else st.next⟩)

/-- `__libdw_intern_cie`, libdw/cie.c:187-196. -/
def internCie (c : Cache) (st : St) (offset : Nat) (x : NextCfi.Cie) : Res St :=
  match st.cies.find? (fun k => k.offset = offset) with
  | some _ => pure st
  | none => do
    let k ← newCie c offset x
    pure { st with cies := st.cies ++ [k] }

/-- The start of the instructions, libdw/fde.c:102-119; `none` is invalid data.  `(Dwarf_Word) (end - p)` wraps if the
values went beyond the end of the entry. -/
def instrsOf (c : Cache) (k : CieC) (p stop : Nat) : Res (Option Nat) :=
  if k.sized then do
    let n ← uleb c p stop
    if (stop + 2 ^ 64 - n.2) % 2 ^ 64 < n.1 then pure none else pure (some (n.2 + n.1))
  else pure (some (p + k.augSize))

/-- `intern_fde`, libdw/fde.c:65-139. -/
def internFde (c : Cache) (eh : Bool) (t : Tree) (st : St) (ciePtr start stop : Nat) : Res (Out Fde × St) := do
  let (k, st) ← findCie c eh st ciePtr
  match k with
  | none => pure (.bad, st)
  | some k =>
    match readEncoded c k.enc start with
    | .ub => .ub
    | .err => pure (.null, st)
    | .ok (s, p) =>
      match readEncoded c (k.enc % 16) p with
      | .ub => .ub
      | .err => pure (.null, st)
      | .ok (n, p) =>
        let e := (n + s) % 2 ^ 64
        if s ≥ e then pure (.bad, st)
        else do
          let i ← instrsOf c k p stop
          match i with
          | none => pure (.null, st)
          | some i =>
            let f : Fde := ⟨k, s, e, i, stop⟩
            match t.clash st.fdes f with
            | some g => pure (.got g, st)
            | none => pure (.got f, { st with fdes := st.fdes ++ [f] })

/-- `__libdw_fde_by_offset`, libdw/fde.c:141-171; `none` is NULL. -/
def fdeByOffset (c : Cache) (eh : Bool) (t : Tree) (st : St) (offset : Nat) : Res (Option Fde × St) :=
  match nextCfi c eh offset with
  | .ub => .ub
  | .err => pure (none, st)
  | .ok none => pure (none, st)
  | .ok (some (.cie _, _)) => pure (none, st)
  | .ok (some (.fde k s e, next)) => do
    let (f, st) ← internFde c eh t st k s e
    match f with
    | .got f => pure (some f, if st.next = offset then { st with next := next } else st)
    | _ => pure (none, st)

/-- The loop of `__libdw_find_fde`, libdw/fde.c:278-318; `none` is NULL. -/
def findLoop (c : Cache) (eh : Bool) (t : Tree) (address : Nat) : Nat → St → Res (Option Fde × St)
  | 0, _ => .ub
  | fuel + 1, st =>
    match nextCfi c eh st.next with
    | .ub => .ub
    | .err =>
      if nextOnError c st.next = st.next then pure (none, st)
      else findLoop c eh t address fuel { st with next := nextOnError c st.next }
    | .ok none => pure (none, { st with next := 2 ^ 64 - 1 })
    | .ok (some (.cie x, next)) => do
      let st ← internCie c { st with next := next } st.next x
      findLoop c eh t address fuel st
    | .ok (some (.fde k s e, next)) => do
      let (f, st) ← internFde c eh t { st with next := next } k s e
      match f with
      | .bad => findLoop c eh t address fuel st
      | .null => pure (none, st)
      | .got f => if f.start ≤ address ∧ f.stop > address then pure (some f, st) else findLoop c eh t address fuel st

/-- `__libdw_find_fde`, libdw/fde.c:245-324; `none` is NULL. -/
def findFde (c : Cache) (eh : Bool) (t : Tree) (tab : Option Table) (st : St) (address : Nat) :
    Res (Option Fde × St) :=
  match t.find st.fdes address with
  | some f => pure (some f, st)
  | none =>
    match tab with
    | some tab => do
      let o ← binarySearch tab c.vaddr address
      match o with
      | none => pure (none, st)
      | some o => do
        let (f, st) ← fdeByOffset c eh t st o
        match f with
        | none => pure (none, st)
        | some f => if address < f.start ∨ address ≥ f.stop then pure (none, st) else pure (some f, st)
    | none => findLoop c eh t address (c.buf.length + 2) st

/-- A CFI handle before the first lookup. -/
def init : St := ⟨[], [], 0⟩

end Verif.Fde
