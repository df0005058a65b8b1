import Verif.Linkmap.Lemmas
/-!
# C109: the objects that the dynamic linker had loaded are found in a core file
-/
namespace Verif.Linkmap

theorem forall2_length {α β : Type} {R : α → β → Prop} {a : List α} {b : List β} (h : List.Forall₂ R a b) : a.length = b.length := by
  induction h with
  | nil => rfl
  | cons _ _ ih => simp [ih]

/-- **C109.**  For every memory with a well-formed chain of fewer elements than there are segment
boundaries, one entry is made for each element with a dynamic segment, newest first in the list,
with its name (for the first element, that of the executable the user gave), its `l_ld`, and the
file of that name exactly if the memory does not contradict the file's build ID. -/
theorem C109_chain_partial {E : Env} {mem : Nat → Option Byte} (hc : Callback mem E.mc) (hf : FilesOk E.file)
    (hw : E.w = 4 ∨ E.w = 8) {rdebug rmap : Nat} {nodes : List Node} (hr : Word mem E.w E.e (rdebug + E.w) rmap)
    (hch : Chain mem E.w E.e rmap nodes) (hn : nodes.length < E.elts) (hd : ∀ n f, E.file n = some f → f.dyn ≠ none) :
    ∃ mods, reportRDebug E rdebug = .ok (true, mods.reverse) ∧
      List.Forall₂ (Reported mem E.file) ((Named E.exe nodes).filter (·.ld ≠ 0)) mods := by
  obtain ⟨mods, h1, h2⟩ := report_ok hc hf hw hr hch
  have hl : (Named E.exe nodes).length = nodes.length := by cases nodes <;> simp [Named]
  rw [List.take_of_length_le (by omega)] at h2
  refine ⟨mods, h1, ?_⟩
  generalize (Named E.exe nodes).filter (·.ld ≠ 0) = ns at h2
  clear h1
  induction h2 with
  | nil => exact .nil
  | cons h _ ih =>
    refine .cons ⟨h.1, h.2.1, ?_, h.2.2.2⟩ ih
    cases hl : (_ : Mod).leak with
    | false => rfl
    | true =>
      obtain ⟨-, f, h3, h4⟩ := h.2.2.1.1 hl
      exact absurd h4 (hd _ _ h3)

/-- **C109.**  If the pointer to the chain cannot be read, that is reported as a failure, and no entry is
made. -/
theorem C109_unreadable {E : Env} {mem : Nat → Option Byte} (hc : Callback mem E.mc) {rdebug i : Nat} (hi : i < E.w)
    (hb : rdebug + E.w < 2 ^ 64) (hr : mem (rdebug + E.w + i) = none) : reportRDebug E rdebug = .ok (false, []) := by
  unfold reportRDebug
  simp only [Nat.mod_eq_of_lt hb, readAddrs, covers, load]
  have : E.mc (rdebug + E.w) (1 * E.w) = none := by
    cases hm : E.mc (rdebug + E.w) (1 * E.w) with
    | none => rfl
    | some d =>
      obtain ⟨h1, h2⟩ := hc.sound _ _ _ hm
      have h3 := h2 i (by omega)
      rw [hr, List.getElem?_eq_getElem (by omega)] at h3
      cases h3
  rw [this]
  rfl

/-- The list of modules may be cut off: of every chain that has at least as many elements as
there are segment boundaries, only the first elements are reported, and nothing says so. -/
theorem C109_truncated_violation {E : Env} {mem : Nat → Option Byte} (hc : Callback mem E.mc) (hf : FilesOk E.file)
    (hw : E.w = 4 ∨ E.w = 8) {rdebug rmap : Nat} {nodes : List Node} (hr : Word mem E.w E.e (rdebug + E.w) rmap)
    (hch : Chain mem E.w E.e rmap nodes) (hld : ∀ nd ∈ nodes, nd.ld ≠ 0) (h1 : 1 ≤ E.elts) (hn : E.elts ≤ nodes.length) :
    ∃ mods, reportRDebug E rdebug = .ok (true, mods) ∧ mods.length + 1 = E.elts := by
  obtain ⟨mods, h2, h3⟩ := report_ok hc hf hw hr hch
  refine ⟨_, h2, ?_⟩
  have hl : (Named E.exe nodes).length = nodes.length := by cases nodes <;> simp [Named]
  have hall : ∀ nd ∈ Named E.exe nodes, nd.ld ≠ 0 := by
    cases nodes with
    | nil => simp [Named]
    | cons x t =>
      intro nd hnd
      simp only [Named, List.mem_cons] at hnd
      rcases hnd with h | h
      · rw [h]; exact hld x (by simp)
      · exact hld nd (by simp [h])
  rw [List.filter_eq_self.2 (by intro a ha; simpa using hall a (List.mem_of_mem_take ha))] at h3
  have := forall2_length h3
  rw [List.length_take] at this
  rw [List.length_reverse]
  omega

/-- The file descriptor is lost: for every chain whose first element has a dynamic segment, and
every executable given by the user that has none (a static one), the entry of the first element
has a descriptor that is neither closed nor kept. -/
theorem C109_leak_violation {E : Env} {mem : Nat → Option Byte} (hc : Callback mem E.mc) (hf : FilesOk E.file)
    (hw : E.w = 4 ∨ E.w = 8) {rdebug rmap : Nat} {nd : Node} {t : List Node} (hr : Word mem E.w E.e (rdebug + E.w) rmap)
    (hch : Chain mem E.w E.e rmap (nd :: t)) (hld : nd.ld ≠ 0) (h1 : 2 ≤ E.elts) {x : List Byte} {f : File} (hx : E.exe = some x)
    (hne : x ≠ []) (hfx : E.file x = some f) (hdyn : f.dyn = none) :
    ∃ mods, reportRDebug E rdebug = .ok (true, mods) ∧ ∃ m ∈ mods, m.leak = true := by
  obtain ⟨mods, h2, h3⟩ := report_ok hc hf hw hr hch
  obtain ⟨k, hk⟩ : ∃ k, E.elts - 1 = k + 1 := ⟨E.elts - 2, by omega⟩
  rw [hk, Named, List.take_succ_cons, List.filter_cons_of_pos (by simpa using hld)] at h3
  cases h3 with
  | cons h _ =>
    rename_i m ms _
    refine ⟨_, h2, m, by simp, ?_⟩
    exact h.2.2.1.2 ⟨by simpa [hx] using hne, f, by simpa [hx] using hfx, hdyn⟩

/-! ## Clobbered memory -/

/-- What is known of a buffer while walking through any memory. -/
def Sane (mem : Nat → Option Byte) (b : Buf) : Prop := ∀ d, b.data = some d → d ≠ [] ∧ Bytes mem b.pos d

theorem sane_none {mem : Nat → Option Byte} (p : Nat) : Sane mem ⟨p, none⟩ := fun d hd => by cases hd

theorem sane_pos {mem : Nat → Option Byte} {n : Nat} (hlow : ∀ a, a < n → mem a = none) {b : Buf} (hb : Sane mem b) {d : List Byte}
    (hd : b.data = some d) : n ≤ b.pos := by
  obtain ⟨h1, h2⟩ := hb d hd
  have hl := List.length_pos_iff.2 h1
  refine Classical.byContradiction fun h => ?_
  have := h2 0 hl
  rw [Nat.add_zero, hlow _ (by omega), List.getElem?_eq_getElem hl] at this
  cases this

theorem sane_mc {E : Env} {mem : Nat → Option Byte} (hc : Callback mem E.mc) {a n : Nat} {d : List Byte} (h : E.mc a n = some d) : Sane mem ⟨a, some d⟩ := by
  intro d' hd'
  cases hd'
  have := hc.sound _ _ _ h
  refine ⟨fun h0 => ?_, this.2⟩
  subst h0
  have hn : n = 0 := by simpa using this.1
  subst hn
  have := hc.terminated _ _ h
  simp at this

theorem words_safe {E : Env} {d : List Byte} : ∀ (n off : Nat), off + n * E.w ≤ d.length → ∃ ws, words E d off n = .ok ws ∧ ws.length = n
  | 0, _, _ => ⟨[], rfl, rfl⟩
  | n + 1, off, h => by
    rw [Nat.succ_mul] at h
    obtain ⟨ws, h1, h2⟩ := words_safe (E := E) (d := d) n (off + E.w) (by omega)
    rw [words, if_neg (by omega), h1]
    exact ⟨_, rfl, by simp [h2]⟩

theorem words_lt {E : Env} (hw : E.w ≤ 8) {d : List Byte} : ∀ (n off : Nat) (ws : List Nat), words E d off n = .ok ws → ∀ x ∈ ws, x < 2 ^ 64
  | 0, _, ws, h => by
    rw [words] at h
    have := Res.ok.inj h
    subst this
    simp
  | n + 1, off, ws, h => by
    rw [words] at h
    split at h
    · cases h
    · rename_i hl
      rw [Res.bind_eq_ok] at h
      obtain ⟨t, h1, h2⟩ := h
      have := Res.ok.inj h2
      subst this
      intro x hx
      rw [List.mem_cons] at hx
      rcases hx with hx | hx
      · refine word_lt (mem := fun i => ((d.drop off).take E.w)[i]?) (e := E.e) (a := 0) hw ⟨(d.drop off).take E.w, by rw [List.length_take, List.length_drop]; omega, fun i _ => by rw [Nat.zero_add], hx⟩
      · exact words_lt hw n _ t h1 x hx

theorem readAddrs_safe {E : Env} {mem : Nat → Option Byte} (hc : Callback mem E.mc) (hw : E.w = 4 ∨ E.w = 8) (hlow : ∀ a, a < 4 * E.w → mem a = none)
    {b : Buf} (hb : Sane mem b) {a n : Nat} (ha : a < 2 ^ 64) (hn : n ≤ 4) :
    readAddrs E b a n = .err ∨ ∃ ws b', readAddrs E b a n = .ok (ws, b') ∧ Sane mem b' ∧ ∀ x ∈ ws, x < 2 ^ 64 := by
  have hnw : n * E.w ≤ 4 * E.w := Nat.mul_le_mul_right _ hn
  have hw8 : E.w ≤ 8 := by rcases hw with h | h <;> omega
  unfold readAddrs
  cases hcv : covers b a (n * E.w) with
  | true =>
    unfold covers at hcv
    cases hbd : b.data with
    | none => rw [hbd] at hcv; cases hcv
    | some d =>
      rw [hbd] at hcv
      simp only [Bool.and_eq_true, decide_eq_true_eq] at hcv
      have hp := sane_pos hlow hb hbd
      rw [Nat.mod_eq_of_lt (by omega)] at hcv
      obtain ⟨ws, h1, h2⟩ := words_safe (E := E) n (a - b.pos) hcv.2
      refine .inr ⟨ws, b, ?_, hb, words_lt hw8 _ _ _ h1⟩
      simp only [if_true, Res.bind_ok, hbd, Option.getD_some, h1, Res.pure_eq]
  | false =>
    simp only [Bool.false_eq_true, if_false]
    unfold load
    cases hm : E.mc a (n * E.w) with
    | none => exact .inl rfl
    | some d =>
      obtain ⟨ws, h1, h2⟩ := words_safe (E := E) (d := d) n 0 (by have := (hc.sound _ _ _ hm).1; omega)
      refine .inr ⟨ws, ⟨a, some d⟩, ?_, sane_mc hc hm, words_lt hw8 _ _ _ h1⟩
      simp only [Res.bind_ok, Option.getD_some, Nat.sub_self, h1, Res.pure_eq]

theorem loadName_safe {E : Env} {mem : Nat → Option Byte} (hc : Callback mem E.mc) (l : Nat) : ∃ s b', loadName E l = .ok (s, b') ∧ Sane mem b' := by
  unfold loadName
  cases hm : E.mc l 0 with
  | none => exact ⟨_, _, rfl, sane_none _⟩
  | some d =>
    simp only [hc.terminated _ _ hm, if_true]
    exact ⟨_, _, rfl, sane_mc hc hm⟩

theorem nameAt_safe {E : Env} {mem : Nat → Option Byte} (hc : Callback mem E.mc) (hlow : ∀ a, a < 1 → mem a = none)
    {b : Buf} (hb : Sane mem b) {l : Nat} (hl : l < 2 ^ 64) : ∃ s b', nameAt E b l = .ok (s, b') ∧ Sane mem b' := by
  unfold nameAt
  cases hbd : b.data with
  | none => exact loadName_safe hc l
  | some d =>
    simp only []
    have hp := sane_pos hlow hb hbd
    split
    · rename_i hcond
      rw [Nat.mod_eq_of_lt (by omega)] at hcond
      rw [if_neg (by omega)]
      split
      · exact ⟨_, _, rfl, hb⟩
      · exact loadName_safe hc l
    · exact loadName_safe hc l

theorem disk_sane {E : Env} {mem : Nat → Option Byte} {b : Buf} (hb : Sane mem b) (nm : List Byte) (ld : Nat) : Sane mem (disk E nm ld b).2 := by
  unfold disk
  split
  · exact hb
  · split
    · exact hb
    · simp only []
      split
      · exact hb
      · split
        · exact hb
        · split <;> exact sane_none _

theorem getD_lt {ws : List Nat} (h : ∀ x ∈ ws, x < 2 ^ 64) (i : Nat) : ws.getD i 0 < 2 ^ 64 := by
  rw [List.getD_eq_getElem?_getD]
  cases hi : ws[i]? with
  | none => exact Nat.two_pow_pos 64
  | some x => exact h x (List.mem_of_getElem? hi)

theorem walk_safe {E : Env} {mem : Nat → Option Byte} (hc : Callback mem E.mc) (hw : E.w = 4 ∨ E.w = 8) (hlow : ∀ a, a < 4 * E.w → mem a = none) :
    ∀ (k : Nat) (first : Bool) (a : Nat) (b : Buf) (acc : List Mod), Sane mem b → a < 2 ^ 64 → ∃ r mods, walk E k first a b acc = .ok (r, mods) ∧ mods.length ≤ acc.length + k := by
  intro k
  induction k with
  | zero => intro first a b acc _ _; exact ⟨true, acc, rfl, by omega⟩
  | succ k ih =>
    intro first a b acc hb ha
    unfold walk
    split
    · exact ⟨_, _, rfl, by omega⟩
    · rcases readAddrs_safe hc hw hlow hb ha (n := 4) (by omega) with h | ⟨ws, b', h, hb', hws⟩
      · rw [h]; exact ⟨_, _, rfl, by omega⟩
      · rw [h]
        simp only []
        split
        · obtain ⟨r, mods, h1, h2⟩ := ih false (ws.getD 3 0) b' acc hb' (getD_lt hws 3)
          exact ⟨r, mods, h1, by omega⟩
        · obtain ⟨s, b'', h1, h2⟩ := nameAt_safe (b := b') hc (fun a h => hlow a (by rcases hw with h | h <;> omega)) hb' (getD_lt hws 1)
          rw [h1]
          simp only []
          obtain ⟨r, mods, h3, h4⟩ := ih false (ws.getD 3 0) _ _ (disk_sane (E := E) h2 (if first = true then E.exe.getD s else s) (ws.getD 2 0)) (getD_lt hws 3)
          exact ⟨r, mods, h3, by simp only [List.length_cons] at h4; omega⟩

/-- **C109.**  Whatever the memory contains, also if the chain is damaged or runs in a circle, the
walk ends, reads nothing outside its buffers and makes fewer entries than there are segment
boundaries, provided that nothing can be read below address 32 (16 for 32-bit processes). -/
theorem C109_safe_partial {E : Env} {mem : Nat → Option Byte} (hc : Callback mem E.mc) (hw : E.w = 4 ∨ E.w = 8)
    (hlow : ∀ a, a < 4 * E.w → mem a = none) (rdebug : Nat) :
    ∃ r mods, reportRDebug E rdebug = .ok (r, mods) ∧ mods.length ≤ E.elts - 1 := by
  unfold reportRDebug
  simp only []
  rcases readAddrs_safe hc hw hlow (sane_none _) (n := 1) (Nat.mod_lt (rdebug + E.w) (Nat.two_pow_pos 64)) (by omega) with h | ⟨ws, b', h, hb', hws⟩
  · rw [h]; exact ⟨_, _, rfl, by simp⟩
  · rw [h]
    simp only []
    obtain ⟨r, mods, h1, h2⟩ := walk_safe hc hw hlow (E.elts - 1) true (ws.getD 0 0) b' [] hb' (getD_lt hws 0)
    exact ⟨r, mods, h1, by simpa using h2⟩

/-! ## Concrete cases -/

/-- A memory that holds `img` at `base` and nothing else. -/
def image (base : Nat) (img : List Byte) (a : Nat) : Option Byte := if base ≤ a then img[a - base]? else none

/-- A memory callback for it. -/
def imageMc (base : Nat) (img : List Byte) (a n : Nat) : Option (List Byte) :=
  let rest := if base ≤ a then img.drop (a - base) else []
  if n = 0 then (if 0#8 ∈ rest then some rest else none) else (if n ≤ rest.length then some rest else none)

theorem image_bytes {base : Nat} {img : List Byte} {a : Nat} (h : base ≤ a) : Bytes (image base img) a (img.drop (a - base)) := by
  intro i hi
  rw [image, if_pos (by omega), List.getElem?_drop]
  congr 1; omega

theorem image_complete {base : Nat} {img : List Byte} {a : Nat} {bs : List Byte} (h : Bytes (image base img) a bs) (hn : bs ≠ []) :
    base ≤ a ∧ bs.length ≤ (img.drop (a - base)).length ∧ ∀ x ∈ bs, x ∈ img.drop (a - base) := by
  have hl := List.length_pos_iff.2 hn
  have hb : base ≤ a := by
    have := h 0 hl
    rw [image, List.getElem?_eq_getElem hl] at this
    split at this
    · omega
    · cases this
  have key : ∀ i (hi : i < bs.length), (img.drop (a - base))[i]? = some bs[i] := by
    intro i hi
    have := h i hi
    rw [image, if_pos (by omega), List.getElem?_eq_getElem hi] at this
    rw [List.getElem?_drop, ← this]
    congr 1; omega
  refine ⟨hb, ?_, fun x hx => ?_⟩
  · obtain ⟨h1, -⟩ := List.getElem?_eq_some_iff.1 (key (bs.length - 1) (by omega))
    omega
  · obtain ⟨i, hi, rfl⟩ := List.mem_iff_getElem.1 hx
    exact List.mem_of_getElem? (key i hi)

theorem image_callback {base : Nat} {img : List Byte} (hb : 0 < base) (hl : base + img.length < 2 ^ 64) : Callback (image base img) (imageMc base img) where
  sound := by
    intro a n d h
    unfold imageMc at h
    by_cases hba : base ≤ a
    · simp only [if_pos hba] at h
      split at h <;> split at h
      · rename_i h0 _
        cases h
        exact ⟨by omega, image_bytes hba⟩
      · cases h
      · rename_i hle
        cases h
        exact ⟨hle, image_bytes hba⟩
      · cases h
    · simp only [if_neg hba] at h
      split at h <;> split at h
      · rename_i h0; cases h0
      · cases h
      · rename_i h1 h0; simp at h0; exact absurd h0 h1
      · cases h
  terminated := by
    intro a d h
    unfold imageMc at h
    simp only [if_true] at h
    generalize (if base ≤ a then img.drop (a - base) else []) = rest at h
    split at h
    · rename_i h0
      have := Option.some.inj h
      rw [← this]; exact h0
    · cases h
  complete := by
    intro a bs hn h
    obtain ⟨h1, h2, -⟩ := image_complete h hn
    have hlen := List.length_pos_iff.2 hn
    unfold imageMc
    simp only [if_pos h1]
    rw [if_neg (by omega), if_pos h2]
    simp
  strings := by
    intro a s h
    obtain ⟨h1, -, h2⟩ := image_complete h.2 (by simp)
    unfold imageMc
    simp only [if_pos h1, if_true]
    rw [if_pos (h2 _ (by simp))]
    simp
  null := by rw [image, if_neg (by omega)]
  bounded := by
    intro a ha
    rw [image, if_pos (by omega), List.getElem?_eq_none (by omega)]

/-- `struct r_debug` at 0x1000, two elements at 0x1010 and 0x1030, and their names. -/
def exImg : List Byte :=
  leBytes 8 1 ++ leBytes 8 0x1010 ++
  leBytes 8 0 ++ leBytes 8 0x1050 ++ leBytes 8 0x3000 ++ leBytes 8 0x1030 ++
  leBytes 8 0x7000 ++ leBytes 8 0x1051 ++ leBytes 8 0x8000 ++ leBytes 8 0 ++ [0x00#8, 0x2f#8, 0x6c#8, 0x00#8]

def exNodes : List Node := [⟨[], 0x3000⟩, ⟨[0x2f#8, 0x6c#8], 0x8000⟩]

/-- The file `/l` with its build ID at 8, and `/x`, which has a dynamic segment and no build ID. -/
def exFile (n : List Byte) : Option File :=
  if n = [0x2f#8, 0x6c#8] then some ⟨some 0x1000, some (0x10, [7#8, 7#8]), fun b => some (b, b + 0x2000)⟩
  else if n = [0x2f#8, 0x78#8] then some ⟨some 0x3000, none, fun b => some (b, b + 0x4000)⟩ else none

def exEnv : Env := ⟨8, .little, imageMc 0x1000 exImg, 5, some [0x2f#8, 0x78#8], exFile⟩

theorem ex_word {base : Nat} {img : List Byte} {a v : Nat} {e : Endian} (bs : List Byte) (h : bs.length = 8 ∧ (∀ i, i < bs.length → image base img (a + i) = bs[i]?) ∧ v = valOf e bs) :
    Word (image base img) 8 e a v := ⟨bs, h.1, h.2.1, h.2.2⟩

theorem ex_chain : Chain (image 0x1000 exImg) 8 .little 0x1010 exNodes := by
  refine ⟨by decide, 0, 0x1050, 0x1030, ex_word (leBytes 8 0) (by decide +kernel), ex_word (leBytes 8 0x1050) (by decide +kernel),
    ex_word (leBytes 8 0x3000) (by decide +kernel), ex_word (leBytes 8 0x1030) (by decide +kernel), .inl ⟨by decide, ?_⟩,
    by decide, 0x7000, 0x1051, 0, ex_word (leBytes 8 0x7000) (by decide +kernel), ex_word (leBytes 8 0x1051) (by decide +kernel),
    ex_word (leBytes 8 0x8000) (by decide +kernel), ex_word (leBytes 8 0) (by decide +kernel), .inl ⟨by decide, ?_⟩, rfl⟩
  · unfold Bytes; decide +kernel
  · unfold Bytes; decide +kernel

theorem ex_callback : Callback (image 0x1000 exImg) (imageMc 0x1000 exImg) := image_callback (by omega) (by decide +kernel)

theorem ex_rmap : Word (image 0x1000 exImg) 8 .little (0x1000 + 8) 0x1010 := ex_word (leBytes 8 0x1010) (by decide +kernel)

theorem ex_files : FilesOk exFile := by
  intro n f h ea bits hb
  unfold exFile at h
  split at h
  · have := Option.some.inj h; subst this
    have := Option.some.inj hb
    cases this; simp
  · split at h
    · have := Option.some.inj h; subst this; cases hb
    · cases h

example : ∃ mods, reportRDebug exEnv 0x1000 = .ok (true, mods.reverse) ∧
    List.Forall₂ (Reported (image 0x1000 exImg) exFile) ((Named exEnv.exe exNodes).filter (·.ld ≠ 0)) mods :=
  C109_chain_partial (E := exEnv) ex_callback ex_files (.inr rfl) ex_rmap ex_chain (by decide) (by
    intro n f h
    have h : exFile n = some f := h
    unfold exFile at h
    split at h
    · have := Option.some.inj h; subst this; simp
    · split at h
      · have := Option.some.inj h; subst this; simp
      · cases h)

example : reportRDebug exEnv 0x1000 = .ok (true, [⟨[0x2f#8, 0x6c#8], 0x8000, true, some (0x7000, 0x9000), false⟩,
    ⟨[0x2f#8, 0x78#8], 0x3000, false, some (0, 0x4000), false⟩]) := by decide +kernel

/-- A file whose build ID differs from the one in memory is not used. -/
def exFile2 (n : List Byte) : Option File :=
  if n = [0x2f#8, 0x6c#8] then some ⟨some 0x8000, some (0x1000, [7#8, 7#8]), fun b => some (b, b + 0x2000)⟩ else none

example : reportRDebug { exEnv with file := exFile2 } 0x1000 = .ok (true, [⟨[0x2f#8, 0x6c#8], 0x8000, true, none, false⟩,
    ⟨[0x2f#8, 0x78#8], 0x3000, false, none, false⟩]) := by decide +kernel

example : ∃ mods, reportRDebug { exEnv with elts := 2 } 0x1000 = .ok (true, mods) ∧ mods.length + 1 = 2 :=
  C109_truncated_violation (E := { exEnv with elts := 2 }) ex_callback ex_files (.inr rfl) ex_rmap ex_chain (by decide) (by decide) (by decide)

/-- `/x` is a static executable. -/
def exFile3 (n : List Byte) : Option File := if n = [0x2f#8, 0x78#8] then some ⟨none, none, fun b => some (b, b)⟩ else none

example : ∃ mods, reportRDebug { exEnv with file := exFile3 } 0x1000 = .ok (true, mods) ∧ ∃ m ∈ mods, m.leak = true :=
  C109_leak_violation (E := { exEnv with file := exFile3 }) ex_callback (by
    intro n f h ea bits hb
    have h : exFile3 n = some f := h
    unfold exFile3 at h
    split at h
    · have := Option.some.inj h; subst this; cases hb
    · cases h) (.inr rfl) ex_rmap ex_chain (by decide) (by decide) rfl (by decide) rfl rfl

/-- A chain that runs in a circle. -/
def exLoop : List Byte := leBytes 8 1 ++ leBytes 8 0x1010 ++ leBytes 8 0 ++ leBytes 8 0 ++ leBytes 8 1 ++ leBytes 8 0x1010

example : ∃ r mods, reportRDebug { exEnv with mc := imageMc 0x1000 exLoop } 0x1000 = .ok (r, mods) ∧ mods.length ≤ 4 :=
  C109_safe_partial (E := { exEnv with mc := imageMc 0x1000 exLoop }) (mem := image 0x1000 exLoop) (image_callback (by omega) (by decide +kernel)) (.inr rfl)
    (by intro a ha; have ha : a < 32 := ha; rw [image, if_neg (by omega)]) 0x1000

example : (reportRDebug { exEnv with mc := imageMc 0x1000 exLoop } 0x1000) = .ok (true, [⟨[], 1, false, none, false⟩, ⟨[], 1, false, none, false⟩,
    ⟨[], 1, false, none, false⟩, ⟨[0x2f#8, 0x78#8], 1, false, some (sub64 1 0x3000, sub64 1 0x3000 + 0x4000), false⟩]) := by decide +kernel

/-- Memory is read outside the buffer: if `struct r_debug` lies in the first bytes of the address
space and names the end of the address space as the first element, the sum in the check of the
buffer wraps around and the element is read far in front of the buffer. -/
theorem C109_wrap_violation : ∃ (E : Env) (mem : Nat → Option Byte) (rdebug : Nat), Callback mem E.mc ∧ FilesOk E.file ∧ E.w = 8 ∧ rdebug ≠ 0 ∧
    reportRDebug E rdebug = .ub :=
  ⟨⟨8, .little, imageMc 1 (leBytes 8 1 ++ leBytes 8 (2 ^ 64 - 16)), 5, none, fun _ => none⟩, image 1 (leBytes 8 1 ++ leBytes 8 (2 ^ 64 - 16)), 1,
    image_callback (by omega) (by decide +kernel), (by intro n f h; cases h), rfl, by omega, by decide +kernel⟩

end Verif.Linkmap
