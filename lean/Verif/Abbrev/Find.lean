import Verif.Abbrev.Props
/-!
# C56: looking up abbreviations by code
-/
namespace Verif.Abbrev
open Verif Verif.Sec Verif.Leb128

/-- One iteration of the loop of `__libdw_findabbrev`. -/
def advance (buf : List Byte) (st : St) : St :=
  match st.last with
  | none => st
  | some off =>
    match getabbrev buf st.tab off with
    | .ok (.abb _ len tab) => ⟨tab, some (off + len)⟩
    | _ => ⟨st.tab, none⟩

theorem advance_err {buf : List Byte} {st : St} {off : Nat} (hl : st.last = some off)
    (e : getabbrev buf st.tab off = .err) : advance buf st = ⟨st.tab, none⟩ := by
  unfold advance
  rw [hl]
  simp only
  rw [e]

theorem advance_fin {buf : List Byte} {st : St} {off : Nat} (hl : st.last = some off)
    (e : getabbrev buf st.tab off = .ok .fin) : advance buf st = ⟨st.tab, none⟩ := by
  unfold advance
  rw [hl]
  simp only
  rw [e]

theorem advance_abb {buf : List Byte} {st : St} {off len : Nat} {a : Abb} {tab : List Abb} (hl : st.last = some off)
    (e : getabbrev buf st.tab off = .ok (.abb a len tab)) : advance buf st = ⟨tab, some (off + len)⟩ := by
  unfold advance
  rw [hl]
  simp only
  rw [e]

/-- How many iterations are left at most. -/
def left (buf : List Byte) (st : St) : Nat :=
  match st.last with
  | none => 0
  | some off => buf.length + 1 - off

theorem searchLoop_fuel (buf : List Byte) (code : Nat) : ∀ (f g : Nat) (st : St), left buf st < f → left buf st < g →
    searchLoop buf code f st = searchLoop buf code g st := by
  intro f
  induction f with
  | zero => intro g st h; omega
  | succ f ih =>
    intro g st hf hg
    obtain ⟨g, rfl⟩ : ∃ k, g = k + 1 := ⟨g - 1, by omega⟩
    unfold searchLoop
    split
    · rfl
    · rename_i off hl
      rcases getabbrev_cases buf st.tab off with e | e | ⟨a, len, tab', l, e, h1, h2, h3, h4, -⟩
      · rw [e]
      · rw [e]
      · rw [e]
        simp only
        have hle := h3.le
        split
        · rfl
        · apply ih
          · unfold left at hf ⊢; rw [hl] at hf; simp only at hf ⊢; omega
          · unfold left at hg ⊢; rw [hl] at hg; simp only at hg ⊢; omega

theorem left_lt (buf : List Byte) (st : St) : left buf st < buf.length + 2 := by
  unfold left
  split <;> omega

theorem searchLoop_safe (buf : List Byte) (code : Nat) : ∀ (f : Nat) (st : St), left buf st < f →
    ∃ r, searchLoop buf code f st = .ok r := by
  intro f
  induction f with
  | zero => intro st h; omega
  | succ f ih =>
    intro st hf
    unfold searchLoop
    split
    · exact ⟨_, rfl⟩
    · rename_i off hl
      rcases getabbrev_cases buf st.tab off with e | e | ⟨a, len, tab', l, e, h1, h2, h3, h4, -⟩
      · rw [e]; exact ⟨_, rfl⟩
      · rw [e]; exact ⟨_, rfl⟩
      · rw [e]
        simp only
        have hle := h3.le
        split
        · exact ⟨_, rfl⟩
        · apply ih
          unfold left at hf ⊢; rw [hl] at hf; simp only at hf ⊢; omega

/-- Lookups always return. -/
theorem findabbrev_ok (buf : List Byte) (st : St) (code : Nat) : ∃ r, findabbrev buf st code = .ok r := by
  unfold findabbrev
  split
  · exact ⟨_, rfl⟩
  · split
    · exact ⟨_, rfl⟩
    · exact searchLoop_safe buf code _ st (left_lt buf st)

/-- The abbreviation a lookup returns. -/
def result (r : Res (Option Abb × St)) : Option Abb :=
  match r with
  | .ok (a, _) => a
  | _ => none

theorem find_insert_some {tab : List Abb} {a b : Abb} {code : Nat} (h : find tab code = some b) :
    find (insert tab a) code = some b := by
  unfold insert
  split
  · exact h
  · unfold find at h ⊢
    rw [List.find?_append, h]; rfl

theorem find_insert_none {tab : List Abb} {a : Abb} {code : Nat} (h : find tab code = none)
    (hk : key a.code ≠ key code) : find (insert tab a) code = none := by
  unfold insert
  split
  · exact h
  · unfold find at h ⊢
    rw [List.find?_append, h]
    simp [hk]

theorem find_insert_self {tab : List Abb} {a : Abb} (h : find tab a.code = none) :
    find (insert tab a) a.code = some a := by
  unfold insert
  rw [h]
  simp only
  unfold find at h ⊢
  rw [List.find?_append, h]
  simp

/-- A new entry is put into the table, one that exists is left there. -/
theorem getabbrev_tab {buf : List Byte} {tab tab' : List Abb} {off len : Nat} {a : Abb}
    (h : getabbrev buf tab off = .ok (.abb a len tab')) :
    (∃ code, code < 2 ^ 32 ∧ a.code = code % 2 ^ 31 ∧
      ((tab' = insert tab a ∧ find tab code = none) ∨ (tab' = tab ∧ ∃ b, find tab code = some b ∧ b.offset = off))) := by
  unfold getabbrev at h
  split at h
  · cases h
  · obtain ⟨b, -, h⟩ := Res.bind_eq_ok.mp h
    split at h
    · cases h
    · obtain ⟨⟨code, p⟩, hc, h⟩ := Res.bind_eq_ok.mp h
      have hc32 : code < 2 ^ 32 := by
        unfold uleb32 at hc
        obtain ⟨⟨w, q⟩, -, hc⟩ := Res.bind_eq_ok.mp hc
        cases hc
        exact Nat.mod_lt _ (by decide)
      have hfc : ∀ {a' q}, fill buf off code p = .ok (a', q) → a'.code = code % 2 ^ 31 := by
        intro a' q hf
        rcases fill_cases buf off code p with e | ⟨a, q, l, e, h3, -⟩
        · rw [e] at hf; cases hf
        · rw [e] at hf; cases hf; exact h3
      simp only at h
      split at h
      · rename_i b hb
        split at h
        · cases h
        · rename_i ho
          obtain ⟨⟨a', q⟩, hf, h⟩ := Res.bind_eq_ok.mp h
          cases h
          exact ⟨code, hc32, hfc hf, .inr ⟨rfl, b, hb, by simpa using ho⟩⟩
      · rename_i hb
        obtain ⟨⟨a', q⟩, hf, h⟩ := Res.bind_eq_ok.mp h
        cases h
        exact ⟨code, hc32, hfc hf, .inl ⟨rfl, hb⟩⟩

/-- All entries were decoded before `last_abbrev_offset`. -/
def Before (st : St) : Prop := ∀ off, st.last = some off → ∀ a ∈ st.tab, a.offset < off

theorem insert_mem {tab : List Abb} {a b : Abb} (h : b ∈ insert tab a) : b ∈ tab ∨ b = a := by
  unfold insert at h
  split at h
  · exact .inl h
  · simpa using h

theorem find_mem {tab : List Abb} {code : Nat} {a : Abb} (h : find tab code = some a) : a ∈ tab :=
  List.mem_of_find?_eq_some h

theorem advance_before {buf : List Byte} {st : St} (h : Before st) : Before (advance buf st) := by
  unfold advance
  split
  · exact h
  · rename_i off hl
    rcases getabbrev_cases buf st.tab off with e | e | ⟨a, len, tab', l, e, h1, h2, h3, h4, h5⟩
    · rw [e]; intro o ho; cases ho
    · rw [e]; intro o ho; cases ho
    · rw [e]
      intro o ho b hb
      cases ho
      simp only at hb
      rcases h5 with rfl | rfl
      · have := h off hl b hb; omega
      · rcases insert_mem hb with hb | rfl
        · have := h off hl b hb; omega
        · omega

/-- Advancing the state does not change what lookups return. -/
theorem find_advance {buf : List Byte} {st : St} (hb : Before st) {code : Nat} (h1 : code ≠ 1) :
    result (findabbrev buf (advance buf st) code) = result (findabbrev buf st code) := by
  by_cases h0 : code = 0
  · subst h0; rfl
  have hkc : key code = code := by unfold key; rw [if_neg h0]
  cases hl : st.last with
  | none => unfold advance; rw [hl]
  | some off =>
    rcases getabbrev_cases buf st.tab off with e | e | ⟨a, len, tab', l, e, g1, g2, g3, g4, g5⟩
    · have hadv : advance buf st = ⟨st.tab, none⟩ := advance_err hl e
      rw [hadv]
      unfold findabbrev
      rw [if_neg h0, if_neg h0]
      simp only
      cases hf : find st.tab code with
      | some b => rfl
      | none =>
        simp only
        rw [searchLoop, searchLoop]
        simp only
        rw [hl]; simp only
        rw [e]
    · have hadv : advance buf st = ⟨st.tab, none⟩ := advance_fin hl e
      rw [hadv]
      unfold findabbrev
      rw [if_neg h0, if_neg h0]
      simp only
      cases hf : find st.tab code with
      | some b => rfl
      | none =>
        simp only
        rw [searchLoop, searchLoop]
        simp only
        rw [hl]; simp only
        rw [e]
    · have hadv : advance buf st = ⟨tab', some (off + len)⟩ := advance_abb hl e
      obtain ⟨c32, hc32, hac, htab⟩ := getabbrev_tab e
      have htab' : tab' = insert st.tab a ∧ find st.tab c32 = none := by
        rcases htab with h | ⟨-, b, hb', ho⟩
        · exact h
        · exact absurd ho (Nat.ne_of_lt (hb off hl b (find_mem hb')))
      obtain ⟨rfl, hnone⟩ := htab'
      rw [hadv]
      unfold findabbrev
      rw [if_neg h0, if_neg h0]
      simp only
      cases hf : find st.tab code with
      | some b => rw [find_insert_some hf]; rfl
      | none =>
        have hloop : searchLoop buf code (buf.length + 2) st =
            if a.code = code then pure (some a, ⟨insert st.tab a, some (off + len)⟩)
            else searchLoop buf code (buf.length + 1) ⟨insert st.tab a, some (off + len)⟩ := by
          rw [searchLoop]
          rw [hl]; simp only
          rw [e]
        rw [hloop]
        by_cases hc : a.code = code
        · rw [if_pos hc]
          subst hc
          rw [find_insert_self hf]
        · rw [if_neg hc, find_insert_none hf]
          · simp only
            rw [searchLoop_fuel buf code (buf.length + 2) (buf.length + 1)]
            · exact left_lt _ _
            · have := g3.le; unfold left; simp only; omega
          · rw [hkc]
            unfold key
            split
            · exact fun h => h1 h.symm
            · exact hc

/-- A state that lookups lead to. -/
inductive Reach (buf : List Byte) (off : Nat) : St → Prop
  | init : Reach buf off (start off)
  | next {st : St} : Reach buf off st → Reach buf off (advance buf st)

theorem Reach.before {buf : List Byte} {off : Nat} {st : St} (h : Reach buf off st) : Before st := by
  induction h with
  | init => intro o ho a ha; cases ha
  | next _ ih => exact advance_before ih

theorem Reach.find_eq {buf : List Byte} {off : Nat} {st : St} (h : Reach buf off st) {code : Nat} (h1 : code ≠ 1) :
    result (findabbrev buf st code) = result (findabbrev buf (start off) code) := by
  induction h with
  | init => rfl
  | next hr ih => rw [find_advance hr.before h1, ih]

theorem searchLoop_reach {buf : List Byte} {o : Nat} (code : Nat) : ∀ (f : Nat) (st : St) (r : Option Abb × St),
    Reach buf o st → searchLoop buf code f st = .ok r → Reach buf o r.2 := by
  intro f
  induction f with
  | zero => intro st r _ h; cases h
  | succ f ih =>
    intro st r hr h
    unfold searchLoop at h
    split at h
    · cases h; exact hr
    · rename_i off hl
      rcases getabbrev_cases buf st.tab off with e | e | ⟨a, len, tab', l, e, h1, h2, h3, h4, -⟩
      · have := hr.next
        rw [advance_err hl e] at this
        rw [e] at h; cases h; exact this
      · have := hr.next
        rw [advance_fin hl e] at this
        rw [e] at h; cases h; exact this
      · have := hr.next
        rw [advance_abb hl e] at this
        rw [e] at h
        simp only at h
        split at h
        · cases h; exact this
        · exact ih _ _ this h

theorem findabbrev_reach {buf : List Byte} {o code : Nat} {st : St} {r : Option Abb × St} (hr : Reach buf o st)
    (h : findabbrev buf st code = .ok r) : Reach buf o r.2 := by
  unfold findabbrev at h
  split at h
  · cases h; exact hr
  · split at h
    · cases h; exact hr
    · exact searchLoop_reach code _ _ _ hr h

/-- The state after looking up the codes of a history. -/
def after (buf : List Byte) : List Nat → St → Res St
  | [], st => pure st
  | c :: cs, st => do
    let (_, st) ← findabbrev buf st c
    after buf cs st

theorem after_ok (buf : List Byte) {o : Nat} : ∀ (cs : List Nat) (st : St), Reach buf o st →
    ∃ st', after buf cs st = .ok st' ∧ Reach buf o st' := by
  intro cs
  induction cs with
  | nil => intro st h; exact ⟨st, rfl, h⟩
  | cons c cs ih =>
    intro st h
    obtain ⟨r, hr⟩ := findabbrev_ok buf st c
    unfold after
    rw [hr]
    exact ih _ (findabbrev_reach h hr)

/-- C56 (partial): for every contents of the section, what a code stands for does not depend on the codes looked up
before, and lookups never leave the section.  The code 1 is covered for well-formed tables by `C56_table`. -/
theorem C56_history_partial (buf : List Byte) (off : Nat) (history : List Nat) (code : Nat) (h1 : code ≠ 1) :
    ∃ st a st', after buf history (start off) = .ok st ∧ findabbrev buf st code = .ok (a, st') ∧
      ∃ st'', findabbrev buf (start off) code = .ok (a, st'') := by
  obtain ⟨st, hst, hr⟩ := after_ok buf history _ (Reach.init (buf := buf) (off := off))
  obtain ⟨⟨a, st'⟩, ha⟩ := findabbrev_ok buf st code
  obtain ⟨⟨b, st''⟩, hb⟩ := findabbrev_ok buf (start off) code
  have := hr.find_eq h1
  rw [ha, hb] at this
  simp only [result] at this
  subst this
  exact ⟨st, a, st', hst, ha, st'', hb⟩

/-- Looking up 2 first makes no difference for 1. -/
example : after demoTable [2] (start 1) = .ok ⟨[⟨1, 0x11, true, 4, 1⟩, ⟨2, 0x34, false, 13, 10⟩], some 20⟩ ∧
    findabbrev demoTable (start 1) 2 =
      .ok (some ⟨2, 0x34, false, 13, 10⟩, ⟨[⟨1, 0x11, true, 4, 1⟩, ⟨2, 0x34, false, 13, 10⟩], some 20⟩) := by
  decide +kernel

/-- A declaration with the code 2^32 is taken for the code 0, which the hash table does not distinguish from 1: the
code 1 stands for nothing at first and for the declaration of 2^32 after another lookup. -/
theorem C56_zero_violation : ∃ (buf : List Byte) (c : List Byte) (a : Abb) (st st1 st2 : St),
    U (2 ^ 32) c ∧ At buf 0 c ∧ findabbrev buf (start 0) 1 = .ok (none, st1) ∧
    after buf [2] (start 0) = .ok st ∧ findabbrev buf st 1 = .ok (some a, st2) ∧ a.tag = 0x34 :=
  ⟨[0x80, 0x80, 0x80, 0x80, 0x10, 0x34, 0, 0, 0, 2, 0x11, 0, 0, 0, 0], [0x80, 0x80, 0x80, 0x80, 0x10],
    ⟨0, 0x34, false, 7, 0⟩, ⟨[⟨0, 0x34, false, 7, 0⟩, ⟨2, 0x11, false, 12, 9⟩], some 14⟩,
    ⟨[⟨0, 0x34, false, 7, 0⟩, ⟨2, 0x11, false, 12, 9⟩], none⟩,
    ⟨[⟨0, 0x34, false, 7, 0⟩, ⟨2, 0x11, false, 12, 9⟩], some 14⟩,
    ⟨by simp [IsLeb], by decide, by decide, by decide⟩, at_iff.mpr (by decide), by decide +kernel, by decide +kernel,
    by decide +kernel, rfl⟩

/-- Asking for the abbreviation at an offset behind the table of the unit (as a reader that walks over the section
does) puts it into the table: afterwards a code stands for the declaration of another table. -/
theorem C56_getabbrev_violation : ∃ (buf : List Byte) (a b : Abb) (off : Nat) (st st1 st2 : St) (len : Nat),
    dwarfGetabbrev buf 0 (start 0) off = .ok (some (b, len), st) ∧
    findabbrev buf (start 0) 1 = .ok (some a, st1) ∧ findabbrev buf st 1 = .ok (some b, st2) ∧
    a.tag = 0x11 ∧ b.tag = 0x34 :=
  ⟨[1, 0x11, 0, 0, 0, 0, 1, 0x34, 0, 0, 0, 0], ⟨1, 0x11, false, 3, 0⟩, ⟨1, 0x34, false, 9, 6⟩, 6,
    ⟨[⟨1, 0x34, false, 9, 6⟩], some 0⟩, ⟨[⟨1, 0x11, false, 3, 0⟩], some 5⟩, ⟨[⟨1, 0x34, false, 9, 6⟩], some 0⟩, 5,
    by decide +kernel, by decide +kernel, by decide +kernel, rfl, rfl⟩

/-! ## Well-formed tables -/

/-- The declaration stands at the offset of the entry, its attribute specifications at `attrp`. -/
def Decoded (buf : List Byte) (d : Spec.Decl) (a : Abb) : Prop :=
  ∃ bs as z1 z2, Spec.DeclBytes d bs ∧ At buf a.offset bs ∧ a = abbOf d a.offset a.attrp ∧
    Line.Spec.Seq Spec.AttrBytes d.attrs as ∧ U 0 z1 ∧ U 0 z2 ∧ At buf a.attrp (as ++ z1 ++ z2)

/-- Which declarations of a well-formed table are in the hash table. -/
structure Part (buf : List Byte) (ds : List Spec.Decl) (st : St) : Prop where
  split : ∃ done todo, ds = done ++ todo ∧ List.Forall₂ (Decoded buf) done st.tab ∧
    ((∃ off body, st.last = some off ∧ Line.Spec.Seq Spec.DeclBytes todo body ∧ At buf off (body ++ [0#8])) ∨
     (st.last = none ∧ todo = []))

theorem key_eq {a b : Nat} (ha : 0 < a) (hb : 0 < b) : key a = key b ↔ a = b := by
  unfold key
  rw [if_neg (by omega), if_neg (by omega)]

theorem find_part {buf : List Byte} {code : Nat} (hc : 0 < code) : ∀ {done : List Spec.Decl} {tab : List Abb},
    List.Forall₂ (Decoded buf) done tab → (done.map (·.code)).Nodup →
    match find tab code with
    | some a => ∃ d ∈ done, d.code = code ∧ Decoded buf d a
    | none => ∀ d ∈ done, d.code ≠ code := by
  intro done tab h
  induction h with
  | nil => intro _; simp [find]
  | @cons d a ds tab hd _ ih =>
    intro hn
    have hcode : a.code = d.code ∧ 0 < d.code := by
      obtain ⟨bs, as, z1, z2, h1, -, h2, -⟩ := hd
      exact ⟨by rw [h2]; rfl, h1.1⟩
    have ih := ih (by simp at hn ⊢; exact hn.2)
    unfold find at ih ⊢
    rw [List.find?_cons]
    by_cases hk : d.code = code
    · have : decide (key a.code = key code) = true := by
        rw [decide_eq_true_eq, key_eq (by omega) hc]; omega
      rw [this]
      exact ⟨d, by simp, hk, hd⟩
    · have : decide (key a.code = key code) = false := by
        rw [decide_eq_false_iff_not, key_eq (by omega) hc]; omega
      rw [this]
      simp only
      split at ih
      · obtain ⟨d', h1, h2⟩ := ih
        exact ⟨d', by simp [h1], h2⟩
      · intro d' hd'
        rcases List.mem_cons.mp hd' with rfl | hd'
        · exact hk
        · exact ih d' hd'

theorem fin_at {buf : List Byte} {tab : List Abb} {off : Nat} (h : At buf off [0#8]) :
    getabbrev buf tab off = .ok .fin := by
  have := h.le
  simp only [List.length_cons, List.length_nil] at this
  unfold getabbrev
  rw [if_neg (by omega), h.cons.1]
  rfl

theorem forall2_snoc {α β : Type} {R : α → β → Prop} {l : List α} {m : List β} {a : α} {b : β}
    (h : List.Forall₂ R l m) (hab : R a b) : List.Forall₂ R (l ++ [a]) (m ++ [b]) := by
  induction h with
  | nil => exact .cons hab .nil
  | cons h _ ih => exact .cons h ih

/-- What the search loop does on a well-formed table. -/
theorem searchLoop_part {buf : List Byte} {ds : List Spec.Decl} {code : Nat} (hc : 0 < code)
    (hn : (ds.map (·.code)).Nodup) : ∀ (f : Nat) (todo done : List Spec.Decl) (body : List Byte) (tab : List Abb) (off : Nat),
    ds = done ++ todo → List.Forall₂ (Decoded buf) done tab → Line.Spec.Seq Spec.DeclBytes todo body →
    At buf off (body ++ [0#8]) → (∀ d ∈ done, d.code ≠ code) → todo.length < f →
    ∃ st, Part buf ds st ∧
      ((∃ d a, d ∈ ds ∧ d.code = code ∧ Decoded buf d a ∧ searchLoop buf code f ⟨tab, some off⟩ = .ok (some a, st)) ∨
       ((∀ d ∈ ds, d.code ≠ code) ∧ searchLoop buf code f ⟨tab, some off⟩ = .ok (none, st))) := by
  intro f
  induction f with
  | zero => intro todo done body tab off _ _ _ _ _ h; omega
  | succ f ih =>
    intro todo done body tab off hds hdone hseq hat hne hf
    cases hseq with
    | nil =>
      refine ⟨⟨tab, none⟩, ⟨done, [], hds, hdone, .inr ⟨rfl, rfl⟩⟩, .inr ⟨?_, ?_⟩⟩
      · rw [hds]; simpa using hne
      · unfold searchLoop
        simp only
        rw [fin_at (by simpa using hat)]
        rfl
    | cons d b todo bs hd hseq =>
      have hat' := hat
      rw [List.append_assoc] at hat'
      have hfind : find tab d.code = none := by
        have := find_part hd.1 hdone (by rw [hds] at hn; simp [List.nodup_append] at hn ⊢; exact hn.1)
        split at this
        · rename_i a _
          obtain ⟨d', h1, h2, -⟩ := this
          rw [hds, List.map_append, List.nodup_append] at hn
          exact absurd h2 (hn.2.2 d'.code (by simp; exact ⟨d', h1, rfl⟩) d.code (by simp))
        · assumption
      obtain ⟨attrp, as, z1, z2, e, hs, h1, h2, hat2⟩ := getabbrev_at hd hat'.append.1 hfind
      have hdec : Decoded buf d (abbOf d off attrp) := ⟨b, as, z1, z2, hd, hat'.append.1, rfl, hs, h1, h2, hat2⟩
      have hdone' : List.Forall₂ (Decoded buf) (done ++ [d]) (tab ++ [abbOf d off attrp]) :=
        forall2_snoc hdone hdec
      have hstep : searchLoop buf code (f + 1) ⟨tab, some off⟩ =
          if d.code = code then .ok (some (abbOf d off attrp), ⟨tab ++ [abbOf d off attrp], some (off + b.length)⟩)
          else searchLoop buf code f ⟨tab ++ [abbOf d off attrp], some (off + b.length)⟩ := by
        rw [searchLoop]
        simp only
        rw [e]
        rfl
      rw [hstep]
      by_cases hk : d.code = code
      · rw [if_pos hk]
        refine ⟨⟨tab ++ [abbOf d off attrp], some (off + b.length)⟩,
          ⟨done ++ [d], todo, by rw [hds]; simp, hdone', .inl ⟨_, bs, rfl, hseq, hat'.append.2⟩⟩, .inl ?_⟩
        exact ⟨d, _, by rw [hds]; simp, hk, hdec, rfl⟩
      · rw [if_neg hk]
        refine ih todo (done ++ [d]) bs _ _ (by rw [hds]; simp) hdone' hseq hat'.append.2 ?_ (by simp at hf; omega)
        intro d' hd'
        rcases List.mem_append.mp hd' with hd' | hd'
        · exact hne d' hd'
        · simp at hd'; subst hd'; exact hk

theorem decl_len {d : Spec.Decl} {bs : List Byte} (h : Spec.DeclBytes d bs) : 0 < bs.length := by
  obtain ⟨-, -, -, c, t, as, z1, z2, hc, -, -, -, -, rfl⟩ := h
  simp

theorem decls_len {ds : List Spec.Decl} {body : List Byte} (h : Line.Spec.Seq Spec.DeclBytes ds body) :
    ds.length ≤ body.length := by
  induction h with
  | nil => simp
  | cons d b ds bs hd _ ih => have := decl_len hd; simp; omega

theorem findabbrev_part {buf : List Byte} {ds : List Spec.Decl} {code : Nat} {st : St} (hn : (ds.map (·.code)).Nodup)
    (hp : Part buf ds st) : ∃ st', Part buf ds st' ∧
      ((∃ d a, d ∈ ds ∧ d.code = code ∧ Decoded buf d a ∧ findabbrev buf st code = .ok (some a, st')) ∨
       ((∀ d ∈ ds, d.code ≠ code) ∧ findabbrev buf st code = .ok (none, st')) ∨
       (code = 0 ∧ findabbrev buf st code = .ok (none, st'))) := by
  obtain ⟨tab, last⟩ := st
  by_cases h0 : code = 0
  · exact ⟨_, hp, .inr (.inr ⟨h0, by unfold findabbrev; rw [if_pos h0]; rfl⟩)⟩
  obtain ⟨done, todo, hds, hdone, hlast⟩ := hp.split
  have hnd : (done.map (·.code)).Nodup := by rw [hds] at hn; simp [List.nodup_append] at hn ⊢; exact hn.1
  have hfp := find_part (code := code) (by omega) hdone hnd
  unfold findabbrev
  rw [if_neg h0]
  simp only at hdone hlast hfp ⊢
  split at hfp
  · rename_i a ha
    obtain ⟨d, h1, h2, h3⟩ := hfp
    rw [ha]
    exact ⟨_, hp, .inl ⟨d, a, by rw [hds]; simp [h1], h2, h3, rfl⟩⟩
  · rename_i ha
    rw [ha]
    rcases hlast with ⟨off, body, rfl, hseq, hat⟩ | ⟨rfl, rfl⟩
    · have := decls_len hseq
      have hle := hat.le
      simp only [List.length_append, List.length_cons, List.length_nil] at hle
      obtain ⟨st', hp', h⟩ := searchLoop_part (by omega) hn (buf.length + 2) todo done body tab off hds hdone hseq hat hfp
        (by omega)
      refine ⟨st', hp', ?_⟩
      rcases h with h | h
      · exact .inl h
      · exact .inr (.inl h)
    · refine ⟨_, hp, .inr (.inl ⟨?_, ?_⟩)⟩
      · rw [hds]; simpa using hfp
      · unfold searchLoop; rfl

theorem after_part {buf : List Byte} {ds : List Spec.Decl} (hn : (ds.map (·.code)).Nodup) : ∀ (cs : List Nat) (st : St),
    Part buf ds st → ∃ st', after buf cs st = .ok st' ∧ Part buf ds st' := by
  intro cs
  induction cs with
  | nil => intro st h; exact ⟨st, rfl, h⟩
  | cons c cs ih =>
    intro st h
    obtain ⟨st1, h1, h2⟩ := findabbrev_part (code := c) hn h
    unfold after
    rcases h2 with ⟨d, a, -, -, -, e⟩ | ⟨-, e⟩ | ⟨-, e⟩ <;> (rw [e]; exact ih _ h1)

/-- C56: in a well-formed table, after any history of lookups, a code stands for the declaration with that code: its
tag, children flag and attributes; other codes stand for nothing. -/
theorem C56_table (buf bs : List Byte) (off : Nat) (ds : List Spec.Decl) (ht : Spec.TableBytes ds bs)
    (ha : At buf off bs) (history : List Nat) (code : Nat) :
    ∃ st st', after buf history (start off) = .ok st ∧
      ((∃ d a, d ∈ ds ∧ d.code = code ∧ findabbrev buf st code = .ok (some a, st') ∧ a.code = code ∧ a.tag = d.tag ∧
          a.children = d.children ∧ ∀ idx : Nat, match d.attrs[idx]? with
            | none => getabbrevattr buf a idx = .err
            | some x => ∃ o, getabbrevattr buf a idx = .ok (x.name, x.form, (x.const % 2 ^ 64).toNat, o)) ∨
       ((∀ d ∈ ds, d.code ≠ code) ∧ findabbrev buf st code = .ok (none, st'))) := by
  obtain ⟨hn, body, hseq, rfl⟩ := ht
  have hp : Part buf ds (start off) := ⟨[], ds, rfl, .nil, .inl ⟨off, body, rfl, hseq, ha⟩⟩
  obtain ⟨st, hst, hp⟩ := after_part hn history _ hp
  obtain ⟨st', -, h⟩ := findabbrev_part (code := code) hn hp
  refine ⟨st, st', hst, ?_⟩
  rcases h with ⟨d, a, h1, h2, ⟨bs, as, z1, z2, h3, h4, h5, h6, h7, h8, h9⟩, e⟩ | ⟨h1, e⟩ | ⟨rfl, e⟩
  · refine .inl ⟨d, a, h1, h2, e, ?_, ?_, ?_, ?_⟩
    · rw [h5]; exact h2
    · rw [h5]; rfl
    · rw [h5]; rfl
    · exact fun idx => attrData_at a h7 h8 h6 (idx := idx) (pos := a.attrp) h9
  · exact .inr ⟨h1, e⟩
  · refine .inr ⟨?_, e⟩
    intro d hd h0
    have : ∀ {ds : List Spec.Decl} {body : List Byte}, Line.Spec.Seq Spec.DeclBytes ds body → ∀ d ∈ ds, 0 < d.code := by
      intro ds body h
      induction h with
      | nil => simp
      | cons x b xs bs hx _ ih =>
        intro d hd
        rcases List.mem_cons.mp hd with rfl | hd
        · exact hx.1
        · exact ih d hd
    have := this hseq d hd
    omega

/-- The table of the examples is well-formed. -/
example : Spec.TableBytes [demo1, demo2] (demoTable.drop 1) ∧ At demoTable 1 (demoTable.drop 1) :=
  ⟨⟨by decide, _, .cons _ _ _ _ demo1_bytes (.cons _ _ _ _ demo2_bytes .nil), by decide⟩, at_iff.mpr (by decide)⟩

end Verif.Abbrev
