import Verif.Write.Props
import Verif.Layout.Props
/-!
# C21 and C22 together: the layout computed by the library is ready to be written
-/
namespace Verif.Write
open Verif

/-- `w` is section number `i` of the file: its header carries the computed layout and its data
blocks the computed offsets. -/
structure Describes (i : Nat) (s : Layout.Scn) (o : Layout.OutScn) (w : Scn) : Prop where
  index : w.index = i + 1
  type : w.type = s.type
  offset : w.offset = o.offset
  size : w.size = o.size
  data : ∀ bs, s.data = some bs → ∃ wbs, w.data = some wbs ∧ wbs.length = bs.length ∧
    ∀ (j : Nat) b wb off, bs[j]? = some b → wbs[j]? = some wb → o.offs[j]? = some off →
      wb.off = off ∧ wb.bytes.length = b.size

/-- All sections of the file. -/
structure DescribesAll (ss : List Layout.Scn) (os : List Layout.OutScn) (ws : List Scn) : Prop where
  len : ws.length = ss.length
  each : ∀ (i : Nat) s o w, ss[i]? = some s → os[i]? = some o → ws[i]? = some w → Describes i s o w

theorem ready_of_layout {lo hi : Nat} {ss : List Layout.Scn} {os : List Layout.OutScn}
    {ws : List Scn} (hl : Layout.LayoutOk lo hi ss os) (hd : DescribesAll ss os ws)
    (hdata : ∀ s ∈ ss, s.type ≠ 8 → s.data.isSome) : Ready lo hi ws := by
  -- the three lists run in parallel
  have get : ∀ (i : Nat) w, ws[i]? = some w → ∃ s o, ss[i]? = some s ∧ os[i]? = some o ∧
      Describes i s o w := by
    intro i w hw
    have hi := (List.getElem?_eq_some_iff.1 hw).1
    have h1 : i < ss.length := by rw [← hd.len]; exact hi
    have h2 : i < os.length := by rw [hl.len]; exact h1
    exact ⟨ss[i], os[i], List.getElem?_eq_getElem h1, List.getElem?_eq_getElem h2,
      hd.each i _ _ _ (List.getElem?_eq_getElem h1) (List.getElem?_eq_getElem h2) hw⟩
  refine ⟨?_, ?_, ?_, ?_⟩
  · intro i w hw
    obtain ⟨s, o, _, _, d⟩ := get i w hw
    exact d.index
  · intro w hw ht
    obtain ⟨i, hi⟩ := List.mem_iff_getElem?.1 hw
    obtain ⟨s, o, hs, ho, d⟩ := get i w hi
    rw [d.type] at ht
    obtain ⟨bs, hbs⟩ := Option.isSome_iff_exists.1 (hdata s (List.mem_of_getElem? hs) ht)
    obtain ⟨wbs, h1, h2, h3⟩ := d.data bs hbs
    have hblk := (hl.each i s o hs ho).1.blocks bs hbs
    have bget : ∀ (j : Nat) wb, wbs[j]? = some wb → ∃ b off, bs[j]? = some b ∧
        o.offs[j]? = some off ∧ wb.off = off ∧ wb.bytes.length = b.size := by
      intro j wb hwb
      have hj := (List.getElem?_eq_some_iff.1 hwb).1
      have k1 : j < bs.length := by omega
      have k2 : j < o.offs.length := by rw [hblk.len]; exact k1
      have := h3 j _ _ _ (List.getElem?_eq_getElem k1) hwb (List.getElem?_eq_getElem k2)
      exact ⟨_, _, List.getElem?_eq_getElem k1, List.getElem?_eq_getElem k2, this.1, this.2⟩
    refine ⟨wbs, h1, ?_, ?_⟩
    · intro wb hwb
      obtain ⟨j, hj⟩ := List.mem_iff_getElem?.1 hwb
      obtain ⟨b, off, k1, k2, k3, k4⟩ := bget j wb hj
      rw [k3, k4, d.size]
      exact hblk.inside j b off k1 k2
    · rw [List.pairwise_iff_getElem]
      intro j k hj hk hjk
      obtain ⟨b, off, k1, k2, k3, k4⟩ := bget j _ (List.getElem?_eq_getElem hj)
      obtain ⟨b', off', l1, l2, l3, l4⟩ := bget k _ (List.getElem?_eq_getElem hk)
      rw [k3, k4, l3]
      exact hblk.disjoint j k b off off' hjk k1 k2 l2
  · intro w hw ht
    obtain ⟨i, hi⟩ := List.mem_iff_getElem?.1 hw
    obtain ⟨s, o, hs, ho, d⟩ := get i w hi
    rw [d.type] at ht
    have := (hl.each i s o hs ho).2
    unfold Layout.fileSize at this
    rw [if_neg ht] at this
    rw [d.offset, d.size]
    exact this
  · rw [List.pairwise_iff_getElem]
    intro j k hj hk hjk ht ht'
    obtain ⟨s, o, hs, ho, d⟩ := get j _ (List.getElem?_eq_getElem hj)
    obtain ⟨s', o', hs', ho', d'⟩ := get k _ (List.getElem?_eq_getElem hk)
    rw [d.type] at ht
    have := hl.disjoint j k s o o' hjk hs ho ho'
    unfold Layout.fileSize at this
    rw [if_neg ht] at this
    rw [d.offset, d.size, d'.offset]
    exact this

/-- **C22**, end to end for a new file below 4 GiB: if `elf_update` computes the layout `r`, and the
sections `ws` carry it, then writing them produces a file in which every data block is at its section's
`sh_offset` plus its `d_off`, the tables are at `e_phoff` and `e_shoff`, and the rest is the fill byte.

Missing: as in C21 (zero alignments, 4 GiB) and `C22_written_partial`. -/
theorem C22_fresh_partial (c : Xlate.Cls) (etype machine : Nat) (permissive : Bool)
    (phdr : Option (List Byte)) (phnum : Option Nat) (ss : List Layout.Scn) (r : Layout.Out)
    (h : Layout.updatenull c etype machine permissive phnum (some ss) = .ok r)
    (halign : ∀ s ∈ ss, ∀ bs, s.data = some bs → ∀ b ∈ bs, b.align ≠ 0)
    (hsize : Layout.headersEnd (Layout.ehdrSize c) (Layout.phdrSize c) phnum
      + (ss.map Layout.weight).sum + 8 + Layout.shdrSize c * (ss.length + 1) < 2 ^ 32)
    (hdata : ∀ s ∈ ss, s.type ≠ 8 → s.data.isSome)
    (ehdr : List Byte) (hehdr : ehdr.length = Layout.ehdrSize c)
    (hphdr : phdr.map (·.length) = phnum.map (Layout.phdrSize c * ·))
    (fb : Byte) (s0 : Scn) (ws : List Scn) (hs0 : s0.index = 0 ∧ s0.dirty = false)
    (hws : DescribesAll ss r.scns ws)
    (hhdr : ∀ s ∈ s0 :: ws, s.hdr.length = Layout.shdrSize c)
    (garbage : List (List Byte)) (hg : garbage.length = ws.length + 1) (f : File) :
    ∃ shoff f', r.shoff = some shoff ∧
      updatefile fb true true ehdr (phdr.map fun ph => (r.phoff.getD 0, ph)) (s0 :: ws) shoff
        garbage f = .ok f' ∧
      At f' 0 ehdr ∧
      (∀ ph, phdr = some ph → At f' (Layout.ehdrSize c) ph) ∧
      (∀ (i : Nat) w, ws[i]? = some w → w.type ≠ 8 → ∀ bs, w.data = some bs → ∀ b ∈ bs,
        At f' (w.offset + b.off) b.bytes) ∧
      (∀ w ∈ s0 :: ws, At f' (shoff + w.index * Layout.shdrSize c) w.hdr) ∧
      (∀ p, Layout.headersEnd (Layout.ehdrSize c) (Layout.phdrSize c) phnum ≤ p → p < shoff →
        ¬ InBlock ws p → f' p = fb) ∧
      r.total = shoff + Layout.shdrSize c * (ws.length + 1) := by
  obtain ⟨hpo, shoff, h1, -, h2, h3, h4⟩ :=
    Layout.C21_layout_partial c etype machine permissive phnum ss r h halign hsize
  have hready := ready_of_layout h2 hws hdata
  have hpd : ∀ ph, phdr = some ph → ∃ n, phnum = some n ∧ ph.length = Layout.phdrSize c * n := by
    intro ph hp
    rw [hp] at hphdr
    cases hn : phnum with
    | none => rw [hn] at hphdr; simp at hphdr
    | some n => rw [hn] at hphdr; simp at hphdr; exact ⟨n, rfl, hphdr⟩
  have hhe : headEnd ehdr (phdr.map fun ph => (r.phoff.getD 0, ph))
      = Layout.headersEnd (Layout.ehdrSize c) (Layout.phdrSize c) phnum := by
    cases hp : phdr with
    | none =>
      have : phnum = none := by
        rw [hp] at hphdr
        cases hn : phnum with
        | none => rfl
        | some n => rw [hn] at hphdr; simp at hphdr
      simp [headEnd, Layout.headersEnd, this, hehdr]
    | some ph =>
      obtain ⟨n, hn, hl⟩ := hpd ph hp
      simp [headEnd, Layout.headersEnd, hn, hpo, hl]
  have hpos : ∀ po ph, (phdr.map fun ph => (r.phoff.getD 0, ph)) = some (po, ph) →
      po = Layout.ehdrSize c := by
    intro po ph he
    cases hp : phdr with
    | none => rw [hp] at he; simp at he
    | some q =>
      obtain ⟨n, hn, hl⟩ := hpd q hp
      rw [hp] at he
      simp only [Option.map_some, Option.some.injEq, Prod.mk.injEq] at he
      rw [← he.1, hpo, hn]
      rfl
  obtain ⟨f', w1, w2, w3, w4, w5, w6, _⟩ := C22_written_partial fb true ehdr
    (phdr.map fun ph => (r.phoff.getD 0, ph)) s0 ws shoff (Layout.shdrSize c) garbage f hs0
    (by intro po ph he; rw [hpos po ph he, hehdr])
    (by rw [hhe]; exact h3) (by rw [hhe]; exact hready) hhdr hg
  refine ⟨shoff, f', h1, w1, w2, ?_, ?_, w5, ?_, ?_⟩
  · intro ph hp
    have he : (phdr.map fun ph => (r.phoff.getD 0, ph)) = some (r.phoff.getD 0, ph) := by
      rw [hp]; rfl
    rw [← hpos _ _ he]
    exact w3 _ _ he
  · intro i w hw ht bs hbs b hb
    exact w4 w (List.mem_of_getElem? hw) ht bs hbs b hb
  · intro p hp1 hp2 hno
    refine w6 p ?_ hp2 ?_ hno
    · rw [hehdr]
      unfold Layout.headersEnd at hp1
      omega
    · intro po ph he
      right
      have : headEnd ehdr (phdr.map fun ph => (r.phoff.getD 0, ph)) = po + ph.length := by
        rw [he]; rfl
      omega
  · rw [h4, hws.len]

/-- Non-vacuity: the layout of `Layout.exampleScns` with concrete contents. -/
def exWs : List Scn :=
  [{ index := 1, type := 1, offset := 176, size := 15, hdr := List.replicate 64 1,
     data := some [⟨0, List.replicate 5 7, true⟩, ⟨8, List.replicate 7 8, true⟩] },
   { index := 2, type := 8, offset := 192, size := 1000, hdr := List.replicate 64 2,
     data := some [⟨0, List.replicate 1000 0, true⟩] },
   { index := 3, type := 2, offset := 192, size := 48, hdr := List.replicate 64 3,
     data := some [⟨0, List.replicate 48 9, true⟩] }]

example : DescribesAll Layout.exampleScns Layout.exampleOut.scns exWs ∧
    (∀ s ∈ Layout.exampleScns, s.type ≠ 8 → s.data.isSome) := by
  refine ⟨⟨rfl, ?_⟩, by decide⟩
  intro i s o w h1 h2 h3
  match i with
  | 0 =>
    simp only [Layout.exampleScns, Layout.exampleOut, exWs, List.getElem?_cons_zero,
      Option.some.injEq] at h1 h2 h3
    subst h1 h2 h3
    refine ⟨rfl, rfl, rfl, rfl, ?_⟩
    intro bs hbs
    injection hbs with hbs
    subst hbs
    refine ⟨_, rfl, rfl, ?_⟩
    intro j b wb off k1 k2 k3
    match j with
    | 0 =>
      simp only [List.getElem?_cons_zero, Option.some.injEq] at k1 k2 k3
      subst k1 k2 k3
      exact ⟨rfl, List.length_replicate⟩
    | 1 => simp at k1 k2 k3; subst k1 k2 k3; simp
    | j + 2 => simp at k1
  | 1 =>
    simp only [Layout.exampleScns, Layout.exampleOut, exWs, List.getElem?_cons_zero,
      List.getElem?_cons_succ, Option.some.injEq] at h1 h2 h3
    subst h1 h2 h3
    refine ⟨rfl, rfl, rfl, rfl, ?_⟩
    intro bs hbs
    injection hbs with hbs
    subst hbs
    refine ⟨_, rfl, rfl, ?_⟩
    intro j b wb off k1 k2 k3
    match j with
    | 0 =>
      simp only [List.getElem?_cons_zero, Option.some.injEq] at k1 k2 k3
      subst k1 k2 k3
      exact ⟨rfl, List.length_replicate⟩
    | j + 1 => simp at k1
  | 2 =>
    simp only [Layout.exampleScns, Layout.exampleOut, exWs, List.getElem?_cons_zero,
      List.getElem?_cons_succ, Option.some.injEq] at h1 h2 h3
    subst h1 h2 h3
    refine ⟨rfl, rfl, rfl, rfl, ?_⟩
    intro bs hbs
    injection hbs with hbs
    subst hbs
    refine ⟨_, rfl, rfl, ?_⟩
    intro j b wb off k1 k2 k3
    match j with
    | 0 =>
      simp only [List.getElem?_cons_zero, Option.some.injEq] at k1 k2 k3
      subst k1 k2 k3
      exact ⟨rfl, List.length_replicate⟩
    | j + 1 => simp at k1
  | i + 3 => simp [Layout.exampleScns] at h1

end Verif.Write
