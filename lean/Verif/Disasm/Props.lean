import Verif.Disasm.Lemmas
/-!
# C128: disassembling eBPF
-/
namespace Verif.Disasm
open Verif Spec

/-- Running over instructions that are all taken. -/
theorem loop_taken {σ : Type} (e : Endian) (out : σ → List Tok → Res (Int × σ)) (f : σ → List Tok → σ) :
    ∀ (is : List Insn) (pre post : List Byte) (fuel addr : Nat) (s : σ), (∀ s t, t ∈ texts addr is → out s t = .ok (0, f s t)) →
      (∀ i ∈ is, i.ok) → allNear addr is →
      addr + (is.flatMap (Insn.bytes e)).length < 2 ^ 64 →
      loop e (pre ++ is.flatMap (Insn.bytes e) ++ post) out (fuel + is.length) pre.length addr s =
        loop e (pre ++ is.flatMap (Insn.bytes e) ++ post) out fuel (pre.length + (is.flatMap (Insn.bytes e)).length)
          (addr + (is.flatMap (Insn.bytes e)).length) ((texts addr is).foldl f s)
  | [], pre, post, fuel, addr, s, _, _, _, _ => by simp [texts]
  | i :: is, pre, post, fuel, addr, s, hf, ho, hn, ha => by
    have hl : ((i :: is).flatMap (Insn.bytes e)).length = i.size + (is.flatMap (Insn.bytes e)).length := by
      rw [List.flatMap_cons, List.length_append, bytes_length]
    rw [hl] at ha ⊢
    have hb : pre ++ (i :: is).flatMap (Insn.bytes e) ++ post = pre ++ i.bytes e ++ (is.flatMap (Insn.bytes e) ++ post) := by
      simp only [List.flatMap_cons, List.append_assoc]
    have hb2 : pre ++ (i :: is).flatMap (Insn.bytes e) ++ post = (pre ++ i.bytes e) ++ is.flatMap (Insn.bytes e) ++ post := by
      simp only [List.flatMap_cons, List.append_assoc]
    have h1 := loop_insn e i (ho i (List.mem_cons_self ..)) pre (is.flatMap (Insn.bytes e) ++ post) out (fuel + is.length) addr s hn.1
    have h2 := loop_taken e out f is (pre ++ i.bytes e) post fuel (addr + i.size) (f s (i.text addr))
      (fun s t ht => hf s t (List.mem_cons_of_mem _ ht)) (fun j hj => ho j (List.mem_cons_of_mem _ hj)) hn.2 (by omega)
    rw [← hb] at h1
    rw [← hb2, List.length_append, bytes_length] at h2
    rw [List.length_cons, ← Nat.add_assoc, h1]
    unfold emit
    rw [hf _ _ (List.mem_cons_self ..), Res.bind_ok]
    simp only
    rw [if_neg (by simp), Nat.mod_eq_of_lt (by omega), h2]
    simp only [texts, List.foldl_cons, Nat.add_assoc]

/-- The number of instructions is no more than that of bytes. -/
theorem insns_le (e : Endian) (is : List Insn) : is.length ≤ (is.flatMap (Insn.bytes e)).length := by
  induction is with
  | nil => simp
  | cons i is ih =>
    rw [List.flatMap_cons, List.length_append, bytes_length, List.length_cons]
    cases i <;> simp only [Insn.size] <;> omega

/-- The loop at the end. -/
theorem loop_end {σ : Type} (e : Endian) (bs : List Byte) (out : σ → List Tok → Res (Int × σ)) (fuel pos addr : Nat) (s : σ)
    (h : bs.length < pos + 8) : loop e bs out (fuel + 1) pos addr s = .ok (0, pos, s) := by
  conv => lhs; unfold loop
  rw [if_neg (by omega)]

/-- C128 (programs).  For every program of eBPF instructions, in either byte order, followed by less than eight bytes, and every output function that
takes all: exactly the texts of the instructions are handed over, in order, the result is 0, and the start pointer is moved behind the last instruction.
Restricted to programs whose jumps lead below 4 GiB. -/
theorem C128_bpf_partial {σ : Type} (e : Endian) (is : List Insn) (tail : List Byte) (addr : Nat) (out : σ → List Tok → Res (Int × σ))
    (f : σ → List Tok → σ) (s : σ) (hf : ∀ s t, out s t = .ok (0, f s t)) (ho : ∀ i ∈ is, i.ok) (ht : tail.length < 8) (hn : allNear addr is)
    (ha : addr + (is.flatMap (Insn.bytes e)).length < 2 ^ 64) :
    disasm e (is.flatMap (Insn.bytes e) ++ tail) addr out s =
      .ok (0, (is.flatMap (Insn.bytes e)).length, (texts addr is).foldl f s) := by
  unfold disasm
  have hle := insns_le e is
  have h := loop_taken e out f is [] tail ((is.flatMap (Insn.bytes e)).length - is.length + tail.length + 1) addr s (fun s t _ => hf s t) ho hn ha
  rw [List.nil_append, List.length_nil, Nat.zero_add] at h
  have hfuel : (is.flatMap (Insn.bytes e) ++ tail).length + 1 =
      (is.flatMap (Insn.bytes e)).length - is.length + tail.length + 1 + is.length := by rw [List.length_append]; omega
  rw [hfuel, h, loop_end]
  rw [List.length_append]; omega

/-- `r1 = 5; if r1 > 3 goto +1; r2 = *(u8 *)(r1-4); exit` at 0x100. -/
def prog : List Insn := [.alu true .mov 1 (.imm 5), .jump .gt 1 (.imm 3) 1, .load .b 2 1 (-4), .exit]

example : (∀ i ∈ prog, i.ok) ∧ allNear 0x100 prog ∧
    texts 0x100 prog = [[.reg 1, .s "=", .dec 5], [.s "if", .reg 1, .s ">", .dec 3, .s "goto", .hex 0x118],
      [.reg 2, .s "=", .s "*(", .s "u8", .s "*)(", .reg 1, .off (-4), .s ")"], [.s "exit"]] := by
  refine ⟨?_, ?_, by decide +kernel⟩
  · intro i hi
    simp only [prog, List.mem_cons, List.not_mem_nil, or_false] at hi
    rcases hi with rfl | rfl | rfl | rfl <;> simp [Insn.ok, fits, Operand.regOf, Operand.immOf]
  · simp [prog, allNear, Insn.near, Insn.jumps, Insn.size]

example : prog.flatMap (Insn.bytes .little) =
    [0xb7, 0x01, 0, 0, 5, 0, 0, 0, 0x25, 0x01, 1, 0, 3, 0, 0, 0, 0x71, 0x12, 0xfc, 0xff, 0, 0, 0, 0, 0x95, 0, 0, 0, 0, 0, 0, 0] := by decide +kernel

/-- The jumps of a program in two parts. -/
theorem allNear_append (e : Endian) (js : List Insn) : ∀ (is : List Insn) (addr : Nat), allNear addr (is ++ js) →
    allNear addr is ∧ allNear (addr + (is.flatMap (Insn.bytes e)).length) js
  | [], addr, h => ⟨trivial, h⟩
  | i :: is, addr, h => by
    have ih := allNear_append e js is (addr + i.size) h.2
    refine ⟨⟨h.1, ih.1⟩, ?_⟩
    rw [List.flatMap_cons, List.length_append, bytes_length, ← Nat.add_assoc]
    exact ih.2

/-- What happens when an instruction is refused. -/
theorem refused {σ : Type} (e : Endian) (is : List Insn) (i : Insn) (rest : List Byte) (addr : Nat) (out : σ → List Tok → Res (Int × σ))
    (f : σ → List Tok → σ) (s : σ) (res : Res (Int × σ)) (ho : ∀ j ∈ is ++ [i], j.ok) (hn : allNear addr (is ++ [i]))
    (ha : addr + ((is ++ [i]).flatMap (Insn.bytes e)).length < 2 ^ 64) (hf : ∀ s t, t ∈ texts addr is → out s t = .ok (0, f s t))
    (hr : out ((texts addr is).foldl f s) (i.text (addr + (is.flatMap (Insn.bytes e)).length)) = res) :
    ∃ go : σ → Res (Int × Nat × σ), disasm e ((is ++ [i]).flatMap (Insn.bytes e) ++ rest) addr out s =
      res.bind fun r => if r.1 ≠ 0 then .ok (r.1, ((is ++ [i]).flatMap (Insn.bytes e)).length, r.2) else go r.2 := by
  have hb : (is ++ [i]).flatMap (Insn.bytes e) = is.flatMap (Insn.bytes e) ++ i.bytes e := by simp
  have hle := insns_le e (is ++ [i])
  rw [List.length_append, List.length_singleton] at hle
  have hnn := allNear_append e [i] is addr hn
  have hl : ((is ++ [i]).flatMap (Insn.bytes e)).length = (is.flatMap (Insn.bytes e)).length + i.size := by
    rw [hb, List.length_append, bytes_length]
  have h := loop_taken e out f is [] (i.bytes e ++ rest)
    (((is ++ [i]).flatMap (Insn.bytes e)).length - (is.length + 1) + rest.length + 1 + 1) addr s hf
    (fun j hj => ho j (List.mem_append_left _ hj)) hnn.1 (by omega)
  rw [List.nil_append, List.length_nil, Nat.zero_add] at h
  have h2 := loop_insn e i (ho i (by simp)) (is.flatMap (Insn.bytes e)) rest out
    (((is ++ [i]).flatMap (Insn.bytes e)).length - (is.length + 1) + rest.length + 1) (addr + (is.flatMap (Insn.bytes e)).length)
    ((texts addr is).foldl f s) hnn.2.1
  have hfuel : ((is ++ [i]).flatMap (Insn.bytes e) ++ rest).length + 1 =
      ((is ++ [i]).flatMap (Insn.bytes e)).length - (is.length + 1) + rest.length + 1 + 1 + is.length := by
    rw [List.length_append]; omega
  rw [← List.append_assoc, ← hb] at h
  rw [← hb] at h2
  unfold disasm
  rw [hfuel, h, h2]
  unfold emit
  rw [hr, ← hl]
  exact ⟨_, rfl⟩

/-- C128 (an output function that refuses).  For every program, every instruction in it, and every output function that takes the instructions before
and answers with another number than 0 for this one: nothing more is handed over, and that number is the result.  Restricted to jumps below 4 GiB; the
start pointer is not where it should be, see `C128_skip_violation`. -/
theorem C128_stop_partial {σ : Type} (e : Endian) (is : List Insn) (i : Insn) (rest : List Byte) (addr : Nat) (out : σ → List Tok → Res (Int × σ))
    (f : σ → List Tok → σ) (s s' : σ) (r : Int) (ho : ∀ j ∈ is ++ [i], j.ok) (hn : allNear addr (is ++ [i]))
    (ha : addr + ((is ++ [i]).flatMap (Insn.bytes e)).length < 2 ^ 64)
    (hf : ∀ s t, t ∈ texts addr is → out s t = .ok (0, f s t))
    (hr : out ((texts addr is).foldl f s) (i.text (addr + (is.flatMap (Insn.bytes e)).length)) = .ok (r, s')) (hr0 : r ≠ 0) :
    ∃ p, disasm e ((is ++ [i]).flatMap (Insn.bytes e) ++ rest) addr out s = .ok (r, p, s') := by
  obtain ⟨go, h⟩ := refused e is i rest addr out f s _ ho hn ha hf hr
  rw [h]
  exact ⟨_, if_pos hr0⟩

/-- C128 is violated: an instruction whose text the output function refuses (for lack of room, say) is lost.  For every program and every instruction
in it that is refused, the start pointer has been moved behind that instruction, so that a second call goes on with the next one. -/
theorem C128_skip_violation {σ : Type} (e : Endian) (is : List Insn) (i : Insn) (rest : List Byte) (addr : Nat) (out : σ → List Tok → Res (Int × σ))
    (f : σ → List Tok → σ) (s s' : σ) (r : Int) (ho : ∀ j ∈ is ++ [i], j.ok) (hn : allNear addr (is ++ [i]))
    (ha : addr + ((is ++ [i]).flatMap (Insn.bytes e)).length < 2 ^ 64)
    (hf : ∀ s t, t ∈ texts addr is → out s t = .ok (0, f s t))
    (hr : out ((texts addr is).foldl f s) (i.text (addr + (is.flatMap (Insn.bytes e)).length)) = .ok (r, s')) (hr0 : r ≠ 0) :
    disasm e ((is ++ [i]).flatMap (Insn.bytes e) ++ rest) addr out s =
      .ok (r, (is.flatMap (Insn.bytes e)).length + (i.bytes e).length, s') := by
  obtain ⟨go, h⟩ := refused e is i rest addr out f s _ ho hn ha hf hr
  rw [h, ← List.length_append]
  show (if r ≠ 0 then _ else _) = _
  rw [if_pos hr0]
  simp

/-- The callback takes nothing. -/
example : disasm .little (prog.flatMap (Insn.bytes .little)) 0x100 (fun (s : Nat) _ => .ok (5, s + 1)) 0 = .ok (5, 8, 1) := by decide +kernel

/-- The loop of the bounds. -/
theorem loop_bounds {σ : Type} (e : Endian) (bs : List Byte) (out : σ → List Tok → Res (Int × σ)) (ho : ∀ s t, ∃ r, out s t = .ok r) :
    ∀ (fuel pos addr : Nat) (s : σ), pos ≤ bs.length → pos % 8 = 0 → bs.length + 1 ≤ pos + fuel →
      ∃ r p s', loop e bs out fuel pos addr s = .ok (r, p, s') ∧ p ≤ bs.length ∧ p % 8 = 0 ∧
        (r = 0 → bs.length < p + 16 ∧ (p + 8 ≤ bs.length → valOf .little ((bs.drop p).take 1) = 0x18))
  | 0, pos, addr, s, hp, _, hf => by omega
  | fuel + 1, pos, addr, s, hp, hm, hf => by
    have hemit : ∀ t a n, pos + n ≤ bs.length → n % 8 = 0 → 0 < n →
        ∃ r p s', emit out s t (pos + n) (loop e bs out fuel (pos + n) a) = .ok (r, p, s') ∧ p ≤ bs.length ∧ p % 8 = 0 ∧
          (r = 0 → bs.length < p + 16 ∧ (p + 8 ≤ bs.length → valOf .little ((bs.drop p).take 1) = 0x18)) := by
      intro t a n hn hn8 hn0
      obtain ⟨⟨r, s1⟩, hr⟩ := ho s t
      unfold emit
      rw [hr, Res.bind_ok]
      simp only
      by_cases h0 : r = 0
      · rw [if_neg (by simp [h0])]
        exact loop_bounds e bs out ho fuel (pos + n) a s1 hn (by omega) (by omega)
      · rw [if_pos h0]
        exact ⟨r, _, _, rfl, hn, by omega, fun h => absurd h h0⟩
    conv => enter [1, r, 1, p, 1, s']; lhs; unfold loop
    by_cases h : pos + 8 ≤ bs.length
    · have hs : slot e bs pos = .ok (decode e ((bs.drop pos).take 8)) := by unfold slot; rw [if_pos h]
      rw [if_pos h, hs, Res.bind_ok]
      by_cases hc : (decode e ((bs.drop pos).take 8)).code = 0x18
      · rw [if_pos hc]
        by_cases h2 : pos + 8 + 8 > bs.length
        · rw [if_pos h2]
          refine ⟨0, pos, s, rfl, hp, hm, fun _ => ⟨by omega, fun _ => ?_⟩⟩
          have hc' : valOf .little (((bs.drop pos).take 8).take 1) = 0x18 := hc
          rw [List.take_take] at hc'
          exact hc'
        · have hs2 : slot e bs (pos + 8) = .ok (decode e ((bs.drop (pos + 8)).take 8)) := by unfold slot; rw [if_pos (by omega)]
          rw [if_neg h2, hs2, Res.bind_ok]
          exact hemit _ _ 16 (by omega) (by omega) (by omega)
      · rw [if_neg hc]
        exact hemit _ _ 8 (by omega) (by omega) (by omega)
    · rw [if_neg h]
      exact ⟨0, pos, s, rfl, hp, hm, fun _ => ⟨by omega, fun h' => absurd h' h⟩⟩

/-- C128 (bounds).  For every sequence of bytes, of any length and content, and every output function: nothing outside of the bytes is read, the work
comes to an end, and the start pointer is moved by a multiple of eight bytes to within the bytes; unless the output function refuses, what remains is
less than eight bytes, or the first half of an instruction of sixteen. -/
theorem C128_bounds {σ : Type} (e : Endian) (bs : List Byte) (addr : Nat) (out : σ → List Tok → Res (Int × σ)) (s : σ)
    (ho : ∀ s t, ∃ r, out s t = .ok r) :
    ∃ r p s', disasm e bs addr out s = .ok (r, p, s') ∧ p ≤ bs.length ∧ p % 8 = 0 ∧
      (r = 0 → bs.length < p + 16 ∧ (p + 8 ≤ bs.length → valOf .little ((bs.drop p).take 1) = 0x18)) :=
  loop_bounds e bs out ho (bs.length + 1) 0 addr s (Nat.zero_le _) rfl (by omega)

/-- An exit and the first half of a constant, then two more bytes. -/
example : disasm .big ([0x95, 0, 0, 0, 0, 0, 0, 0, 0x18, 0x10, 0, 0, 0, 0, 0, 1] ++ [0, 0]) 0 (fun (s : List (List Tok)) t => .ok (0, s ++ [t])) [] =
    .ok (0, 8, [[.s "exit"]]) := by decide +kernel

/-- Instructions with all codes. -/
def samples : List Insn :=
  ([Alu.add, .sub, .mul, .div, .or, .and, .lsh, .rsh, .mod, .xor, .mov, .arsh].flatMap fun o =>
    [.alu false o 0 (.imm 0), .alu true o 0 (.imm 0), .alu false o 0 (.reg 0), .alu true o 0 (.reg 0)]) ++
  ([Cond.eq, .gt, .ge, .set, .ne, .sgt, .sge, .lt, .le, .slt, .sle].flatMap fun c => [.jump c 0 (.imm 0) 0, .jump c 0 (.reg 0) 0]) ++
  ([Size.b, .h, .w, .dw].flatMap fun z => [.load z 0 0 0, .store z 0 (.imm 0) 0, .store z 0 (.reg 0) 0]) ++
  [.neg false 0, .neg true 0, .swap false 0 0, .swap true 0 0, .goto 0, .call 0, .exit, .xadd false 0 0 0, .xadd true 0 0 0,
    .pktAbs true true 0, .pktAbs false true 0, .pktAbs false false 0, .pktInd true true 0 0, .pktInd false true 0 0, .pktInd false false 0 0,
    .const 0 0 0]

theorem samples_all : ∀ x ∈ table, ∃ i ∈ samples, (i.bytes .little).head? = some (BitVec.ofNat 8 x.1) := by decide +kernel

theorem lookup_mem {β : Type} (c : Nat) (v : β) : ∀ l : List (Nat × β), l.lookup c = some v → (c, v) ∈ l
  | [], h => by cases h
  | (a, b) :: l, h => by
    by_cases hc : c = a
    · subst hc
      rw [List.lookup_cons_self] at h
      cases h
      exact List.mem_cons_self ..
    · rw [List.lookup_cons, show (c == a) = false from by simp [hc]] at h
      exact List.mem_cons_of_mem _ (lookup_mem c v l h)

/-- C128 (other codes).  For every slot whose first byte is not that of any instruction, the text says so and names the class. -/
theorem C128_invalid {σ : Type} (e : Endian) (b : Byte) (bs tail : List Byte) (addr : Nat) (f : σ → List Tok → σ) (s : σ) (hl : bs.length = 7)
    (ht : tail.length < 8) (hb : ∀ i : Insn, (i.bytes .little).head? ≠ some b) :
    disasm e (b :: bs ++ tail) addr (fun s t => .ok (0, f s t)) s =
      .ok (0, 8, f s [.s "invalid class", .s (["ld", "ldx", "st", "stx", "alu", "jmp", "6", "alu64"].getD (b.toNat % 8) "")]) := by
  have hcode : (decode e (b :: bs)).code = b.toNat := by
    show valOf .little [b] = b.toNat
    simp [valOf, leVal]
  have h18 : b.toNat ≠ 0x18 := by
    intro h
    refine hb (.const 0 0 0) ?_
    have : b = 0x18 := BitVec.eq_of_toNat_eq h
    rw [this]
    decide +kernel
  have hnone : table.lookup b.toNat = none := by
    cases hx : table.lookup b.toNat with
    | none => rfl
    | some v =>
      obtain ⟨i, _, hi⟩ := samples_all _ (lookup_mem _ _ _ hx)
      refine absurd ?_ (hb i)
      rw [hi]
      simp
  have hslot := slot_mid e [] (b :: bs) tail (by rw [List.length_cons, hl])
  rw [List.nil_append, List.length_nil] at hslot
  have hlen : (b :: bs ++ tail).length = 8 + tail.length := by
    rw [List.length_append, List.length_cons, hl]
  unfold disasm
  conv => lhs; unfold loop
  rw [if_pos (by rw [hlen]; omega), hslot, Res.bind_ok, hcode, if_neg h18]
  unfold emit
  rw [Res.bind_ok]
  simp only
  rw [if_neg (by simp), hlen, Nat.zero_add]
  rw [show 8 + tail.length = (7 + tail.length) + 1 from by omega, loop_end]
  · unfold text
    rw [hcode, hnone]
    rfl
  · rw [hlen]; omega

example : ∀ i : Insn, (i.bytes .little).head? ≠ some 0x06 := by
  intro i h
  have key : ∀ (c d r : Nat) (o v : Int), c < 256 → c ≠ 6 → ∀ l, (slotOf .little c d r o v ++ l).head? ≠ some (0x06 : Byte) := by
    intro c d r o v hc h6 l h
    simp only [slotOf, bytesOf, leBytes, List.cons_append, List.nil_append, List.head?_cons, Option.some.injEq] at h
    have := congrArg BitVec.toNat h
    simp at this
    omega
  have key0 : ∀ (c d r : Nat) (o v : Int), c < 256 → c ≠ 6 → (slotOf .little c d r o v).head? ≠ some (0x06 : Byte) := by
    intro c d r o v hc h6
    have := key c d r o v hc h6 []
    rwa [List.append_nil] at this
  cases i with
  | alu w o d x => revert h; cases w <;> cases o <;> cases x <;> exact key0 _ _ _ _ _ (by simp [Alu.code, Operand.bit]) (by simp [Alu.code, Operand.bit])
  | jump c d x o => revert h; cases c <;> cases x <;> exact key0 _ _ _ _ _ (by simp [Cond.code, Operand.bit]) (by simp [Cond.code, Operand.bit])
  | load z d r o => revert h; cases z <;> exact key0 _ _ _ _ _ (by simp [Size.code]) (by simp [Size.code])
  | store z d x o => revert h; cases z <;> cases x <;> exact key0 _ _ _ _ _ (by simp [Size.code]) (by simp [Size.code])
  | neg w d => revert h; cases w <;> exact key0 _ _ _ _ _ (by simp) (by simp)
  | swap w d n => revert h; cases w <;> exact key0 _ _ _ _ _ (by simp) (by simp)
  | xadd w d r o => revert h; cases w <;> exact key0 _ _ _ _ _ (by simp) (by simp)
  | pktAbs w g v => revert h; cases w <;> cases g <;> exact key0 _ _ _ _ _ (by simp [pktSize]) (by simp [pktSize])
  | pktInd w g r v => revert h; cases w <;> cases g <;> exact key0 _ _ _ _ _ (by simp [pktSize]) (by simp [pktSize])
  | const d r v => exact key _ _ _ _ _ (by decide) (by decide) _ h
  | goto o => exact key0 _ _ _ _ _ (by decide) (by decide) h
  | call o => exact key0 _ _ _ _ _ (by decide) (by decide) h
  | exit => exact key0 _ _ _ _ _ (by decide) (by decide) h

/-- C128 is violated: the target of a jump is cut to 32 bits.  For every address and every jump whose target is 2^32 or more, another target is shown. -/
theorem C128_far_violation (e : Endian) (addr : Nat) (o : Int) (tail : List Byte) (ht : tail.length < 8) (ho : -2 ^ 15 ≤ o ∧ o < 2 ^ 15)
    (h32 : 2 ^ 32 ≤ (addr : Int) + 8 + 8 * o) :
    ∃ v, disasm e ((Insn.goto o).bytes e ++ tail) addr (fun s t => .ok (0, s ++ [t])) [] = .ok (0, 8, [[.s "goto", .hex v]]) ∧
      v = ((addr : Int) + 8 + 8 * o).toNat % 2 ^ 32 ∧ (v : Int) ≠ (addr : Int) + 8 + 8 * o := by
  have hok : (Insn.goto o).ok := by unfold Insn.ok fits; omega
  obtain ⟨b, hb, hbl, hd, hc, hz⟩ := single_bytes e (.goto o) ⟨5, 0, 0, o, 0⟩ hok rfl
  have hslot := slot_mid e [] b tail hbl
  rw [List.nil_append, List.length_nil, hd] at hslot
  have hlen : (b ++ tail).length = 8 + tail.length := by rw [List.length_append, hbl]
  refine ⟨((addr : Int) + 8 + 8 * o).toNat % 2 ^ 32, ?_, rfl, by omega⟩
  rw [hb]
  unfold disasm
  conv => lhs; unfold loop
  rw [if_pos (by rw [hlen]; omega), hslot, Res.bind_ok, if_neg hc]
  unfold emit
  rw [Res.bind_ok]
  simp only
  rw [if_neg (by simp), hlen, Nat.zero_add]
  rw [show 8 + tail.length = (7 + tail.length) + 1 from by omega, loop_end _ _ _ _ _ _ _ (by rw [hlen]; omega)]
  rw [text_single (.goto o) _ _ rfl]
  show Res.ok ((0 : Int), 8, [[Tok.s "goto", Tok.hex _]]) = _
  rw [target_mod]
  have : (((addr : Int) + 8 + 8 * o) % 2 ^ 32 % 2 ^ 32).toNat = ((addr : Int) + 8 + 8 * o).toNat % 2 ^ 32 := by omega
  rw [this]

example : disasm .little ((Insn.goto (-1)).bytes .little) 0xffff800000001000 (fun s t => .ok (0, s ++ [t])) ([] : List (List Tok)) =
    .ok (0, 8, [[.s "goto", .hex 0x1000]]) := by decide +kernel

/-- The first instruction. -/
theorem disasm_first {σ : Type} (e : Endian) (i : Insn) (hi : i.ok) (rest : List Byte) (addr : Nat) (out : σ → List Tok → Res (Int × σ)) (s : σ)
    (hn : i.near addr) (ha : addr + (i.bytes e).length < 2 ^ 64) :
    disasm e (i.bytes e ++ rest) addr out s =
      emit out s (i.text addr) i.size (loop e (i.bytes e ++ rest) out (i.size + rest.length) i.size (addr + i.size)) := by
  have h := loop_insn e i hi [] rest out (i.bytes e ++ rest).length addr s hn
  rw [List.nil_append, List.length_nil, Nat.zero_add] at h
  unfold disasm
  rw [bytes_length] at ha
  rw [h, List.length_append, bytes_length, Nat.mod_eq_of_lt ha]

theorem size_pos (i : Insn) : ∃ n, i.size = n + 1 := by cases i <;> exact ⟨_, rfl⟩

/-- C128 (text in a buffer).  For every instruction and every buffer: if the text has room in it, it is what is stored and the result is 0; otherwise
nothing is stored and the result is the number of bytes that were missing.  Restricted to one instruction, with a jump below 4 GiB: see
`C128_overflow_violation` for two. -/
theorem C128_str_partial (text : List Tok → List Byte) (e : Endian) (i : Insn) (tail : List Byte) (addr len : Nat) (hi : i.ok) (ht : tail.length < 8)
    (hn : i.near addr) (ha : addr + (i.bytes e).length < 2 ^ 64) :
    ∃ r p b, disasmStr text e (i.bytes e ++ tail) addr len = .ok (r, p, b) ∧
      (if (text (i.text addr)).length ≤ len then r = 0 ∧ p = (i.bytes e).length ∧ b.data = text (i.text addr)
       else r = (text (i.text addr)).length - len ∧ b.data = []) := by
  unfold disasmStr
  rw [disasm_first e i hi tail addr _ _ hn ha]
  unfold emit
  by_cases hl : (text (i.text addr)).length ≤ len
  · have hb : bufferCb (text (i.text addr)) ⟨[], len, len⟩ =
        .ok (0, ⟨text (i.text addr), len - (text (i.text addr)).length, (text (i.text addr)).length⟩) := by
      unfold bufferCb
      rw [if_neg (by simp only; omega), if_neg (by simp only; omega), List.nil_append]
    obtain ⟨n, hz⟩ := size_pos i
    simp only [if_pos hl]
    rw [hb, Res.bind_ok]
    simp only
    rw [if_neg (by simp)]
    refine ⟨0, _, ⟨text (i.text addr), len - (text (i.text addr)).length, (text (i.text addr)).length⟩, ?_, rfl, rfl, rfl⟩
    conv => lhs; rw [show i.size + tail.length = n + tail.length + 1 from by omega]
    rw [loop_end _ _ _ _ _ _ _ (by rw [List.length_append, bytes_length]; omega), bytes_length]
  · have hb : bufferCb (text (i.text addr)) ⟨[], len, len⟩ = .ok (((text (i.text addr)).length : Int) - len, ⟨[], len, len⟩) := by
      unfold bufferCb
      rw [if_pos (by simp only; omega)]
    simp only [if_neg hl]
    rw [hb, Res.bind_ok]
    simp only
    rw [if_pos (by omega)]
    exact ⟨_, _, _, rfl, rfl, rfl⟩

/-- What happens with two instructions of which the first has room. -/
theorem str_two (text : List Tok → List Byte) (e : Endian) (i j : Insn) (rest : List Byte) (addr len : Nat) (hi : i.ok) (hj : j.ok)
    (hn : allNear addr [i, j]) (ha : addr + (i.bytes e ++ j.bytes e).length < 2 ^ 64) (hl : (text (i.text addr)).length ≤ len) :
    ∃ go : Buf → Res (Int × Nat × Buf), disasmStr text e (i.bytes e ++ j.bytes e ++ rest) addr len =
      (bufferCb (text (j.text (addr + (i.bytes e).length)))
        ⟨text (i.text addr), len - (text (i.text addr)).length, (text (i.text addr)).length⟩).bind
          fun r => if r.1 ≠ 0 then .ok (r.1, (i.bytes e).length + (j.bytes e).length, r.2) else go r.2 := by
  rw [List.length_append] at ha
  unfold disasmStr
  rw [List.append_assoc, disasm_first e i hi _ addr _ _ hn.1 (by omega)]
  conv => enter [1, go]; lhs; unfold emit
  simp only
  have hb : bufferCb (text (i.text addr)) ⟨[], len, len⟩ =
      .ok (0, ⟨text (i.text addr), len - (text (i.text addr)).length, (text (i.text addr)).length⟩) := by
    unfold bufferCb
    rw [if_neg (by simp only; omega), if_neg (by simp only; omega), List.nil_append]
  rw [hb, Res.bind_ok]
  simp only
  rw [if_neg (by simp)]
  obtain ⟨n, hz⟩ := size_pos i
  have h := loop_insn e j hj (i.bytes e) rest (fun b t => bufferCb (text t) b) (n + (j.bytes e ++ rest).length) (addr + i.size)
    ⟨text (i.text addr), len - (text (i.text addr)).length, (text (i.text addr)).length⟩ hn.2.1
  rw [List.append_assoc, bytes_length, show n + (j.bytes e ++ rest).length + 1 = i.size + (j.bytes e ++ rest).length from by omega] at h
  rw [h]
  unfold emit
  rw [bytes_length, bytes_length]
  exact ⟨_, rfl⟩

/-- C128 is violated: `disasm_str` writes behind the end of the buffer.  For every buffer, and any two instructions of which the first has room, the
text of the second is not longer than that of the first, and both together have no room: after the first text, the room that is left is taken to be the
length of that text (`buffer->len = len`, libasm/disasm_str.c:55). -/
theorem C128_overflow_violation (text : List Tok → List Byte) (e : Endian) (i j : Insn) (rest : List Byte) (addr len : Nat) (hi : i.ok) (hj : j.ok)
    (hn : allNear addr [i, j]) (ha : addr + (i.bytes e ++ j.bytes e).length < 2 ^ 64) (hl : (text (i.text addr)).length ≤ len)
    (h2 : (text (j.text (addr + (i.bytes e).length))).length ≤ (text (i.text addr)).length)
    (ho : len < (text (i.text addr)).length + (text (j.text (addr + (i.bytes e).length))).length) :
    disasmStr text e (i.bytes e ++ j.bytes e ++ rest) addr len = .ub := by
  obtain ⟨go, h⟩ := str_two text e i j rest addr len hi hj hn ha hl
  rw [h]
  unfold bufferCb
  rw [if_neg (by simp only; omega), if_pos (by simp only; omega)]
  rfl

/-- C128 is violated: a text is refused although there is room for it.  For every buffer with room for the texts of two instructions, the second
longer than the first: only the first is stored, and more room is asked for. -/
theorem C128_room_violation (text : List Tok → List Byte) (e : Endian) (i j : Insn) (rest : List Byte) (addr len : Nat) (hi : i.ok) (hj : j.ok)
    (hn : allNear addr [i, j]) (ha : addr + (i.bytes e ++ j.bytes e).length < 2 ^ 64)
    (h2 : (text (i.text addr)).length < (text (j.text (addr + (i.bytes e).length))).length)
    (ho : (text (i.text addr)).length + (text (j.text (addr + (i.bytes e).length))).length ≤ len) :
    ∃ r p b, disasmStr text e (i.bytes e ++ j.bytes e ++ rest) addr len = .ok (r, p, b) ∧ 0 < r ∧ b.data = text (i.text addr) := by
  obtain ⟨go, h⟩ := str_two text e i j rest addr len hi hj hn ha (by omega)
  rw [h]
  unfold bufferCb
  rw [if_pos (by simp only; omega)]
  refine ⟨_, _, _, if_pos ?_, ?_, rfl⟩ <;> simp only <;> omega

/-- A text with one byte for each token, and a buffer of five bytes. -/
example : disasmStr (fun t => List.replicate t.length 0x20) .little (Insn.bytes .little (.alu true .mov 1 (.imm 5)) ++ Insn.bytes .little (.alu true .add 1 (.reg 2)))
    0 5 = .ub := by decide +kernel

example : disasmStr (fun t => List.replicate t.length 0x20) .little (Insn.bytes .little .exit ++ Insn.bytes .little (.alu true .add 1 (.reg 2)))
    0 100 = .ok (2, 16, ⟨[0x20], 99, 1⟩) := by decide +kernel

end Verif.Disasm
