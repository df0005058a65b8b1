import Verif.Rdebug.Lemmas
/-!
# C110: the dynamic linker's data is found through the auxiliary vector
-/
namespace Verif.Rdebug

/-- **C110.**  The word size and byte order of every auxiliary vector are recognised in which
nothing looks like AT_PHENT before AT_PHENT itself. -/
theorem C110_format_partial {w : Nat} (hw : w = 4 ∨ w = 8) {e : Endian} {es : List Aux}
    (h : Recognisable w e (if w = 8 then 56 else 32) es) : probe (auxText w e es) = some (w, e) := by
  obtain ⟨-, pre, post, rfl, hf, hp⟩ := h
  have happ : auxText w e (pre ++ ⟨4, if w = 8 then 56 else 32⟩ :: post) =
      auxText w e pre ++ (bytesOf e w 4 ++ bytesOf e w (if w = 8 then 56 else 32) ++ auxText w e post) := by simp [auxText]
  have hlen := auxText_length w e (pre ++ ⟨4, if w = 8 then 56 else 32⟩ :: post)
  rw [probe, hlen, happ]
  rw [List.length_append, List.length_cons]
  rcases hw with rfl | rfl
  · have hpl : 0 < post.length := List.length_pos_iff.2 (hp rfl)
    exact probe32 (by rw [auxText_length]; omega) pre _ hf (by omega)
  · exact probe64 pre _ hf (by omega)

theorem scan_vals {w : Nat} (hw : w = 4 ∨ w = 8) {e : Endian} {es : List Aux} (h : ∀ a ∈ es, a.tag < 256 ^ w ∧ a.val < 256 ^ w) (v : Vals) :
    scan w e ((auxText w e es).length / (2 * w)) (auxText w e es) v = es.foldl (fun v a => scanEntry v a.tag a.val) v := by
  rw [auxText_length, Nat.mul_div_cancel _ (by rcases hw with rfl | rfl <;> omega)]
  have := scan_text (e := e) (rest := []) es v h
  rwa [List.append_nil] at this

theorem phtext_length {w : Nat} (hw : w = 4 ∨ w = 8) (e : Endian) (phs : List Ph) : (phs.flatMap (phText w e)).length = phs.length * phSize w := by
  induction phs with
  | nil => simp
  | cons p t ih => rw [List.flatMap_cons, List.length_append, ih, phText_length hw, List.length_cons, Nat.succ_mul]; omega

/-- **C110.**  If the auxiliary vector says where the program headers are, the memory there holds
them, and the memory where the dynamic section was loaded holds it, then the address in its first
DT_DEBUG entry (21) is found, for both word sizes and byte orders and also if the program was
loaded at another address than it was linked for. -/
theorem C110_found_partial {w : Nat} (hw : w = 4 ∨ w = 8) {e : Endian} {mc : Nat → Nat → Option (List Byte)} {find : Nat → Nat → Nat}
    {es : List Aux} {phs : List Ph} {ds1 ds2 : List DynEnt} {size k phdr align dv v at_ : Nat} {m1 m2 : List Byte}
    (hsize : size = if w = 8 then 56 else 32) (hes : Recognisable w e size es)
    (h3 : Says es 3 phdr) (h4 : Says es 4 size) (h5 : Says es 5 phs.length) (h6 : Says es 6 (2 ^ k)) (hk : 1 ≤ k ∧ k < 64)
    (ha : align = 0 ∨ 2 ^ k ≤ align) (h0 : phdr ≠ 0) (hfits : ∀ p ∈ phs, Fits w p)
    (hdyn : (∃ p ∈ phs, p.type = 2) ∧ ∀ p ∈ phs, p.type = 2 → p.vaddr = dv ∧ p.filesz = (dynText w e (ds1 ++ ⟨21, v⟩ :: ds2)).length)
    (hat : LoadedAt (2 ^ k) phdr phs dv at_) (hlen : phs.length * size < 2 ^ 64)
    (hm1 : mc phdr (phs.length * size) = some (phs.flatMap (phText w e) ++ m1))
    (hm2 : mc at_ (dynText w e (ds1 ++ ⟨21, v⟩ :: ds2)).length = some (dynText w e (ds1 ++ ⟨21, v⟩ :: ds2) ++ m2))
    (hds : ∀ d ∈ ds1, d.tag ≠ 21 ∧ d.tag < 256 ^ w) (hv : v < 256 ^ w) :
    findRDebug mc find align (auxText w e es) = .ok (some (w, e), v) := by
  have hps : size = phSize w := hsize
  have hpos : 0 < phSize w := by unfold phSize; split <;> omega
  have hprobe := C110_format_partial hw (hsize ▸ hes)
  have hk2 : 1 < 2 ^ k := Nat.one_lt_two_pow (by omega)
  rw [findRDebug, hprobe]
  simp only []
  rw [scan_vals hw hes.1]
  generalize hV : es.foldl (fun v a => scanEntry v a.tag a.val) ⟨0, 0, 0, 0, align⟩ = V
  have e3 : V.phdr = phdr := hV ▸ fold_phdr es _ h3.2 (.inr h3.1)
  have e4 : V.phent = phSize w := hps ▸ hV ▸ fold_phent es _ h4.2 (.inr h4.1)
  have e5 : V.phnum = phs.length := hV ▸ fold_phnum es _ h5.2 (.inr h5.1)
  have e6 : V.align = 2 ^ k := hV ▸ fold_align hk2 es _ h6.2 (by
    rcases ha with ha | ha
    · exact .inr ⟨.inl ha, h6.1⟩
    · rcases Nat.eq_or_lt_of_le ha with ha | ha
      · exact .inl ha.symm
      · exact .inr ⟨.inr ha, h6.1⟩)
  have hne : phs.length ≠ 0 := by
    obtain ⟨p, hp, -⟩ := hdyn.1
    have := List.length_pos_of_mem hp
    omega
  rw [hps] at hlen hm1
  rw [phdrs, if_neg (by rw [e3, e5]; omega), e3, e4, e5, e6, Nat.mod_eq_of_lt hlen, hm1]
  simp only []
  rw [if_neg (by omega), if_neg (by rw [Nat.not_lt, Nat.le_div_iff_mul_le hpos]; omega), if_neg (by rw [Nat.mul_mod_left]; simp)]
  have htake : (phs.flatMap (phText w e) ++ m1).take (phs.length * phSize w) = phs.flatMap (phText w e) ++ [] := by
    rw [take_app (phtext_length hw e phs), List.append_nil]
  rw [htake, phLoop_text hw phs _ hfits, Res.bind_ok, Res.pure_eq]
  simp only []
  have hfs : (dynText w e (ds1 ++ ⟨21, v⟩ :: ds2)).length = (ds1 ++ ⟨21, v⟩ :: ds2).length * (2 * w) := dynText_length _ _ _
  have hw2 : 0 < 2 * w := by rcases hw with rfl | rfl <;> omega
  have hfs0 : (dynText w e (ds1 ++ ⟨21, v⟩ :: ds2)).length ≠ 0 := by
    rw [hfs, List.length_append, List.length_cons, ← Nat.add_assoc, Nat.succ_mul]; omega
  have hend : dynLoop w e ((dynText w e (ds1 ++ ⟨21, v⟩ :: ds2)).length / (2 * w)) ((dynText w e (ds1 ++ ⟨21, v⟩ :: ds2) ++ m2).take (dynText w e (ds1 ++ ⟨21, v⟩ :: ds2)).length) 0 = v := by
    rw [take_app rfl, hfs, Nat.mul_div_cancel _ hw2]
    exact dynLoop_text (by rcases hw with rfl | rfl <;> decide) hv ds1 hds
  have hmod : (dynText w e (ds1 ++ ⟨21, v⟩ :: ds2)).length % (2 * w) = 0 := by rw [hfs, Nat.mul_mod_left]
  generalize dynText w e (ds1 ++ ⟨21, v⟩ :: ds2) = D at *
  congr 2
  rcases hat with ⟨pv, hp6, hpv, hcong, hat, heq⟩ | ⟨hno, rfl⟩
  · obtain ⟨q, hq, hq6⟩ := hp6
    have hpvlt : pv < 2 ^ 64 := by
      have := (hfits q hq).2.1
      rw [hpv q hq hq6] at this
      rcases hw with rfl | rfl <;> omega
    have hdvlt : dv < 2 ^ 64 := by
      obtain ⟨q, hq, hq2⟩ := hdyn.1
      have := (hfits q hq).2.1
      rw [(hdyn.2 q hq hq2).1] at this
      rcases hw with rfl | rfl <;> omega
    have hphlt : phdr < 2 ^ 64 := by
      obtain ⟨a, ha, ha3⟩ := h3.1
      have := (hes.1 a ha).2
      rw [h3.2 a ha ha3] at this
      rcases hw with rfl | rfl <;> omega
    obtain ⟨b, hb, hbv⟩ := bias_some hk.1 hcong hpvlt
    rw [phFold_ok hk.1 hk.2 hcong hpvlt hb phs _ hpv hdyn.2 (.inr ⟨rfl, hdyn.1⟩) (.inr ⟨rfl, q, hq, hq6⟩), dynamic]
    simp only []
    rw [if_neg hfs0, show (dv + b) % 2 ^ 64 = at_ by omega, hm2]
    simp only []
    rw [if_neg (by rw [hmod]; simp), hend]
  · rw [phFold_plain phs _ hno hdyn.2 (.inr hdyn.1) rfl, dynamic]
    simp only []
    rw [if_neg hfs0, hm2]
    simp only []
    rw [if_neg (by rw [hmod]; simp), hend]

theorem phLoop_safe {w : Nat} {e : Endian} {phdr align : Nat} : ∀ (n : Nat) (bs : List Byte) (s : Dyn), n * phSize w ≤ bs.length → ∃ r, phLoop w e phdr align n bs s = .ok r
  | 0, _, s, _ => ⟨s, rfl⟩
  | n + 1, bs, s, h => by
    rw [Nat.succ_mul] at h
    rw [phLoop, if_neg (by omega)]
    generalize considerPhdr phdr align s _ _ _ = r
    have ih := phLoop_safe (w := w) (e := e) (phdr := phdr) (align := align) n (bs.drop (phSize w)) r.1 (by rw [List.length_drop]; omega)
    cases hr : r.2 with
    | true => exact ⟨r.1, by simp [hr]⟩
    | false => simpa [hr] using ih

/-- **C110.**  Whatever the memory holds, looking for the dynamic linker's data is safe if the
vector gives the size of a program header for every AT_PHENT. -/
theorem C110_safe_partial {w : Nat} (hw : w = 4 ∨ w = 8) {e : Endian} {mc : Nat → Nat → Option (List Byte)} {find : Nat → Nat → Nat}
    {es : List Aux} {size align : Nat} (hsize : size = if w = 8 then 56 else 32) (hes : Recognisable w e size es) (h4 : Says es 4 size)
    (hmc : ∀ a n d, mc a n = some d → n ≤ d.length) : (findRDebug mc find align (auxText w e es)).safe := by
  have hps : size = phSize w := hsize
  have hpos : 0 < phSize w := by unfold phSize; split <;> omega
  rw [findRDebug, C110_format_partial hw (hsize ▸ hes)]
  simp only []
  rw [scan_vals hw hes.1]
  generalize hV : es.foldl (fun v a => scanEntry v a.tag a.val) ⟨0, 0, 0, 0, align⟩ = V
  have e4 : V.phent = phSize w := hps ▸ hV ▸ fold_phent es _ h4.2 (.inr h4.1)
  have : ∃ r, phdrs mc find w e V = .ok r ∨ phdrs mc find w e V = .err := by
    unfold phdrs
    split
    · exact ⟨_, .inl rfl⟩
    · split
      · exact ⟨_, .inl rfl⟩
      · rename_i d hd
        rw [e4, if_neg (by omega)]
        split
        · exact ⟨(⟨0, 0, none⟩, 0), .inr rfl⟩
        · rename_i hle
          split
          · exact ⟨_, .inl rfl⟩
          · rw [Nat.not_lt, Nat.le_div_iff_mul_le hpos] at hle
            have := hmc _ _ _ hd
            rw [e4, Nat.mod_eq_of_lt (by omega)] at this
            obtain ⟨r, hr⟩ := phLoop_safe (w := w) (e := e) (phdr := V.phdr) (align := V.align) V.phnum (d.take (V.phnum * phSize w)) ⟨0, 0, none⟩ (by rw [List.length_take]; omega)
            rw [hr]
            exact ⟨_, .inl rfl⟩
  obtain ⟨r, hr | hr⟩ := this <;> rw [hr] <;> simp

/-! ## Concrete cases -/

/-- The auxiliary vector of a 64-bit process whose headers are at 0x555555554040. -/
def exAux : List Aux := [⟨33, 0x7ffff7fc1000⟩, ⟨6, 4096⟩, ⟨3, 0x555555554040⟩, ⟨4, 56⟩, ⟨5, 3⟩, ⟨9, 0x555555555060⟩, ⟨0, 0⟩]

def exPhs : List Ph := [⟨6, 4, 0x40, 0x40, 0x40, 0xa8, 0xa8, 8⟩, ⟨1, 5, 0, 0, 0, 0x1000, 0x1000, 0x1000⟩, ⟨2, 6, 0x2df0, 0x3df0, 0x3df0, 48, 48, 8⟩]

def exDs : List DynEnt := [⟨1, 1⟩, ⟨21, 0x7ffff7ffe118⟩, ⟨0, 0⟩]

def exMc (a _n : Nat) : Option (List Byte) :=
  if a = 0x555555554040 then some (exPhs.flatMap (phText 8 .little) ++ [0#8])
  else if a = 0x555555557df0 then some (dynText 8 .little exDs) else none

theorem ex_rec : Recognisable 8 .little 56 exAux := by
  refine ⟨by decide +kernel, [⟨33, 0x7ffff7fc1000⟩, ⟨6, 4096⟩, ⟨3, 0x555555554040⟩], [⟨5, 3⟩, ⟨9, 0x555555555060⟩, ⟨0, 0⟩], rfl, ?_, by simp⟩
  intro a ha
  simp only [List.mem_cons, List.not_mem_nil, or_false] at ha
  rcases ha with rfl | rfl | rfl <;> simp only [Decoy] <;> decide +kernel

example : findRDebug exMc (fun _ _ => 0) 0 (auxText 8 .little exAux) = .ok (some (8, .little), 0x7ffff7ffe118) :=
  C110_found_partial (.inr rfl) (es := exAux) (phs := exPhs) (ds1 := [⟨1, 1⟩]) (ds2 := [⟨0, 0⟩]) (size := 56) (k := 12) (phdr := 0x555555554040) (dv := 0x3df0)
    (at_ := 0x555555557df0) (m1 := [0#8]) (m2 := []) rfl ex_rec ⟨by decide +kernel, by decide +kernel⟩ ⟨by decide +kernel, by decide +kernel⟩ ⟨by decide +kernel, by decide +kernel⟩ ⟨by decide +kernel, by decide +kernel⟩
    (by decide +kernel) (.inl rfl) (by decide +kernel) (by unfold Fits; decide) ⟨by decide +kernel, by decide +kernel⟩
    (.inl ⟨0x40, by decide +kernel, by decide +kernel, by decide +kernel, by decide +kernel, by decide +kernel⟩) (by decide +kernel) (by decide +kernel) (by decide +kernel) (by decide +kernel) (by decide +kernel)

example : findRDebug exMc (fun _ _ => 0) 0x200000 (auxText 8 .little exAux) = .ok (some (8, .little), 0x7ffff7ffe118) := by decide +kernel

/-- A 32-bit big-endian process whose program was linked for the address it is loaded at. -/
def exAux32 : List Aux := [⟨6, 4096⟩, ⟨3, 0x10000034⟩, ⟨4, 32⟩, ⟨5, 2⟩, ⟨0, 0⟩]

def exPhs32 : List Ph := [⟨1, 5, 0, 0x10000000, 0x10000000, 0x1000, 0x1000, 0x1000⟩, ⟨2, 6, 0x2df0, 0x10001000, 0x10001000, 24, 24, 8⟩]

def exMc32 (a _n : Nat) : Option (List Byte) :=
  if a = 0x10000034 then some (exPhs32.flatMap (phText 4 .big))
  else if a = 0x10001000 then some (dynText 4 .big exDs32) else none
where exDs32 : List DynEnt := [⟨1, 1⟩, ⟨21, 0x6ffe118⟩, ⟨0, 0⟩]

example : findRDebug exMc32 (fun _ _ => 0) 0 (auxText 4 .big exAux32) = .ok (some (4, .big), 0x6ffe118) := by decide +kernel

theorem ex_rec32 : Recognisable 4 .big 32 exAux32 := by
  refine ⟨by decide +kernel, [⟨6, 4096⟩, ⟨3, 0x10000034⟩], [⟨5, 2⟩, ⟨0, 0⟩], rfl, ?_, by simp⟩
  intro a ha
  simp only [List.mem_cons, List.not_mem_nil, or_false] at ha
  rcases ha with rfl | rfl <;> simp only [Decoy] <;> decide +kernel

example : probe (auxText 4 .big exAux32) = some (4, .big) := C110_format_partial (.inl rfl) ex_rec32

example : (findRDebug (fun _ n => some (List.replicate n 0#8)) (fun _ _ => 0) 0 (auxText 4 .big exAux32)).safe :=
  C110_safe_partial (.inl rfl) rfl ex_rec32 ⟨by decide +kernel, by decide +kernel⟩ (by
    intro a n d h
    have := Option.some.inj h
    rw [← this]; simp)

/-! ## Where the property fails -/

theorem probe_second {bs : List Byte} {n : Nat} {e : Endian} (h1 : check64 bs = none) (h2 : check32 bs = none) (h3 : check32 (bs.drop 8) = some e) :
    probeLoop (n + 1) bs = some (4, e) := by
  rw [probeLoop, h1, h2, h3]

theorem misread {e : Endian} {v : Nat} (hv : bytesOf e 8 v = bytesOf e 4 4 ++ bytesOf e 4 32) (tag : Nat) (post : List Aux) (ht2 : tag < 2 ^ 24) (h4 : tag ≠ 4) :
    probe (auxText 8 e (⟨tag, v⟩ :: post)) = some (4, e) := by
  have hl := auxText_length 8 e (⟨tag, v⟩ :: post)
  rw [probe, hl, auxText_cons, List.length_cons, show (post.length + 1) * (2 * 8) / 16 = post.length + 1 by omega]
  generalize auxText 8 e post = R
  have hlt : tag < 256 ^ 8 := by omega
  refine probe_second ?_ ?_ ?_
  · apply check64_none (by simp only [List.length_append, bytesOf_length]; omega)
    intro e' ⟨h, _⟩
    rw [cut1 (bytesOf_length _ _ _)] at h
    have := val8 hlt h
    cases e <;> cases e' <;> simp only [bytesOf, leBytes, valOf] at this
    · exact h4 (this.trans (by decide))
    · rw [show leVal (List.reverse _) = 2 ^ 58 by decide] at this; omega
    · rw [show beVal _ = 2 ^ 58 by decide] at this; omega
    · exact h4 (this.trans (by decide))
  · rw [List.append_assoc]; exact word_not32 hlt (small_not_decoy ht2)
  · rw [List.append_assoc, drop_app (bytesOf_length _ _ _), hv]
    exact check32_hit

/-- The format is guessed wrongly: the vector of every 64-bit little-endian process that has the
value 0x2000000004, which may be an address, before AT_PHENT is taken for that of a 32-bit
process. -/
theorem C110_format_violation (tag : Nat) (post : List Aux) (ht2 : tag < 2 ^ 24) (h4 : tag ≠ 4) :
    probe (auxText 8 .little (⟨tag, 0x2000000004⟩ :: post)) = some (4, .little) :=
  misread (by decide +kernel) tag post ht2 h4

/-- Division by zero: for every 64-bit vector with a valid AT_PHENT that is followed by an AT_PHENT
of 0, as a damaged core file may have it, if the memory at AT_PHDR can be read. -/
theorem C110_division_violation {e : Endian} {mc : Nat → Nat → Option (List Byte)} {find : Nat → Nat → Nat} (align phdr phnum : Nat) {d : List Byte}
    (h0 : phdr ≠ 0) (hlt : phdr < 2 ^ 64) (hn : phnum ≠ 0) (hnlt : phnum < 2 ^ 64) (hm : mc phdr 0 = some d) :
    findRDebug mc find align (auxText 8 e [⟨4, 56⟩, ⟨3, phdr⟩, ⟨5, phnum⟩, ⟨4, 0⟩]) = .ub := by
  have hr : ∀ a ∈ [(⟨4, 56⟩ : Aux), ⟨3, phdr⟩, ⟨5, phnum⟩, ⟨4, 0⟩], a.tag < 256 ^ 8 ∧ a.val < 256 ^ 8 := by
    intro a ha
    simp only [List.mem_cons, List.not_mem_nil, or_false] at ha
    rcases ha with rfl | rfl | rfl | rfl <;> constructor <;> simp only [] <;> omega
  have hrec : Recognisable 8 e 56 [⟨4, 56⟩, ⟨3, phdr⟩, ⟨5, phnum⟩, ⟨4, 0⟩] :=
    ⟨hr, [], _, rfl, (by intro a ha; cases ha), by simp⟩
  rw [findRDebug, C110_format_partial (.inr rfl) hrec]
  simp only []
  rw [scan_vals (.inr rfl) hr]
  simp only [List.foldl_cons, List.foldl_nil, scanEntry]
  simp [phdrs, h0, hn, hm]

/-- Memory is read beyond the buffer: with a later AT_PHENT of 1 and 56 as AT_PHNUM, a buffer for
one program header is allocated and 56 are read from it (the first is not what is looked for). -/
theorem C110_overrun_violation : ∃ (mc : Nat → Nat → Option (List Byte)), (∀ a n d, mc a n = some d → n ≤ d.length) ∧
    findRDebug mc (fun _ _ => 0) 0 (auxText 8 .little [⟨4, 56⟩, ⟨3, 0x400040⟩, ⟨5, 56⟩, ⟨4, 1⟩]) = .ub :=
  ⟨fun _ n => some (List.replicate n 1#8), by intro a n d h; have := Option.some.inj h; rw [← this]; simp, by decide +kernel⟩

end Verif.Rdebug
