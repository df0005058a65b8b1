import Verif.Debuglink.Spec
/-!
# Lemmas: the search for separate debug files
-/
namespace Verif.Debuglink
open Verif Spec

/-! ### Opening -/

/-- Nothing changed but `errno` and the next descriptor. -/
structure Quiet (st st' : St) : Prop where
  opened : st'.opened = st.opened
  bad : st'.badClose = st.badClose
  elf : st'.elf = st.elf

/-- One descriptor was opened. -/
structure Took (fd : Nat) (st st' : St) : Prop where
  opened : st'.opened = fd :: st.opened
  bad : st'.badClose = st.badClose
  elf : st'.elf = st.elf

theorem Quiet.refl (st : St) : Quiet st st := ⟨rfl, rfl, rfl⟩

theorem Quiet.trans {a b c : St} (h : Quiet a b) (h' : Quiet b c) : Quiet a c :=
  ⟨h'.opened.trans h.opened, h'.bad.trans h.bad, h'.elf.trans h.elf⟩

theorem Quiet.took {fd : Nat} {a b c : St} (h : Quiet a b) (h' : Took fd b c) : Took fd a c :=
  ⟨by rw [h'.opened, h.opened], h'.bad.trans h.bad, h'.elf.trans h.elf⟩

/-- The outcome of trying names one after the other. -/
def Att (fs : Fs) (m : Mod) (names : List Name) (st : St) : Option (Nat × File × Name) × St → Prop
  | (some (fd, f, name), st') => First fs m names name f ∧ Took fd st st'
  | (none, st') => (∀ q ∈ names, ¬ Usable fs m q) ∧ Quiet st st' ∧ (¬ (st'.errno = ENOENT ∨ st'.errno = ENOTDIR) → ∃ q ∈ names, fs q = .error st'.errno)

theorem tryOpen_att (fs : Fs) (m : Mod) (q : Name) (st : St) : Att fs m [q] st (tryOpen fs m q st) := by
  unfold tryOpen sysOpen
  cases h : fs q with
  | error e =>
    simp only
    refine ⟨?_, ⟨rfl, rfl, rfl⟩, fun _ => ⟨q, by simp, h⟩⟩
    intro q' hq
    rw [List.mem_singleton] at hq
    subst hq
    rintro ⟨f, hf, _⟩
    rw [h] at hf; cases hf
  | ok f =>
    simp only
    by_cases hm : f.ino = m.main
    · rw [if_pos hm]
      refine ⟨?_, ?_, ?_⟩
      · intro q' hq
        rw [List.mem_singleton] at hq
        subst hq
        rintro ⟨f', hf, hne⟩
        rw [h] at hf
        cases hf
        exact hne hm
      · simp only [sysClose, List.mem_cons, true_or, if_true]
        exact ⟨by simp, rfl, rfl⟩
      · intro hn; exact absurd (Or.inl rfl) hn
    · rw [if_neg hm]
      exact ⟨⟨[], [], rfl, h, hm, by simp⟩, ⟨rfl, rfl, rfl⟩⟩

theorem First.append_left {fs : Fs} {m : Mod} {a b : List Name} {n : Name} {f : File} (ha : ∀ q ∈ a, ¬ Usable fs m q) (h : First fs m b n f) : First fs m (a ++ b) n f := by
  obtain ⟨u, v, h1, h2, h3, h4⟩ := h
  refine ⟨a ++ u, v, by rw [h1, List.append_assoc], h2, h3, ?_⟩
  intro q hq
  rcases List.mem_append.1 hq with h | h
  · exact ha q h
  · exact h4 q h

theorem First.append_right {fs : Fs} {m : Mod} {a : List Name} {n : Name} {f : File} (b : List Name) (h : First fs m a n f) : First fs m (a ++ b) n f := by
  obtain ⟨u, v, h1, h2, h3, h4⟩ := h
  exact ⟨u, v ++ b, by rw [h1]; simp, h2, h3, h4⟩

theorem First.mem {fs : Fs} {m : Mod} {a : List Name} {n : Name} {f : File} (h : First fs m a n f) : n ∈ a ∧ Usable fs m n := by
  obtain ⟨u, v, h1, h2, h3, h4⟩ := h
  exact ⟨by rw [h1]; simp, f, h2, h3⟩

theorem First.unique {fs : Fs} {m : Mod} {a : List Name} {n n' : Name} {f f' : File} (h : First fs m a n f) (h' : First fs m a n' f') : n = n' ∧ f = f' := by
  obtain ⟨u, v, h1, h2, h3, h4⟩ := h
  obtain ⟨u', v', h1', h2', h3', h4'⟩ := h'
  have key : ∀ (u u' v v' : List Name), (∀ q ∈ u, ¬ Usable fs m q) → (∀ q ∈ u', ¬ Usable fs m q) → u ++ n :: v = u' ++ n' :: v' → n = n' := by
    intro u
    induction u with
    | nil =>
      intro u' v v' _ hu h
      cases u' with
      | nil => rw [List.nil_append, List.nil_append, List.cons.injEq] at h; exact h.1
      | cons w u' =>
        rw [List.nil_append, List.cons_append, List.cons.injEq] at h
        exact absurd ⟨f, h2, h3⟩ (hu n (by rw [h.1]; simp))
    | cons w u ih =>
      intro u' v v' hu hu' h
      cases u' with
      | nil =>
        rw [List.nil_append, List.cons_append, List.cons.injEq] at h
        exact absurd ⟨f', h2', h3'⟩ (hu n' (by rw [h.1]; simp))
      | cons w' u' =>
        rw [List.cons_append, List.cons_append, List.cons.injEq] at h
        exact ih u' v v' (fun q hq => hu q (by simp [hq])) (fun q hq => hu' q (by simp [hq])) h.2
  have hn := key u u' v v' h4 h4' (h1.symm.trans h1')
  subst hn
  rw [h2] at h2'
  cases h2'
  exact ⟨rfl, rfl⟩

theorem attempt_att (x : Ctx) (dir sub : Option Name) (file : Name) (base : Option Name) (st : St) :
    Att x.fs x.m ((file :: base.toList).map (joinName dir sub)) st (attempt x dir sub file base st) := by
  unfold attempt
  have h := tryOpen_att x.fs x.m (joinName dir sub file) st
  generalize tryOpen x.fs x.m (joinName dir sub file) st = r at h ⊢
  obtain ⟨r, st1⟩ := r
  cases r with
  | some r =>
    obtain ⟨fd, f, name⟩ := r
    simp only [Att, List.map_cons] at h ⊢
    exact ⟨First.append_right _ h.1, h.2⟩
  | none =>
    cases base with
    | none => exact h
    | some b =>
      simp only
      have h2 := tryOpen_att x.fs x.m (joinName dir sub b) st1
      generalize tryOpen x.fs x.m (joinName dir sub b) st1 = r at h2 ⊢
      obtain ⟨r, st2⟩ := r
      cases r with
      | some r =>
        obtain ⟨fd, f, name⟩ := r
        exact ⟨First.append_left h.1 h2.1, h.2.1.took h2.2⟩
      | none =>
        refine ⟨?_, h.2.1.trans h2.2.1, ?_⟩
        · intro q hq
          rcases List.mem_cons.1 hq with h' | h'
          · exact h.1 q (by rw [h']; simp)
          · exact h2.1 q h'
        · intro hn
          obtain ⟨q, hq, he⟩ := h2.2.2 hn
          exact ⟨q, List.mem_cons_of_mem _ hq, he⟩

/-- The outcome for an element. -/
def Out (fs : Fs) (m : Mod) (names : List Name) (st : St) : Hit × St → Prop
  | (.file fd f name, st') => First fs m names name f ∧ Took fd st st'
  | (.next, st') => (∀ q ∈ names, ¬ Usable fs m q) ∧ Quiet st st'
  | (.fail, st') => Quiet st st' ∧ (st'.errno ≠ ENOENT ∧ st'.errno ≠ ENOTDIR) ∧ ∃ q ∈ names, fs q = .error st'.errno

theorem Out.append {fs : Fs} {m : Mod} {a b : List Name} {st st1 : St} {r : Hit × St} (ha : ∀ q ∈ a, ¬ Usable fs m q) (hq : Quiet st st1) (h : Out fs m b st1 r) :
    Out fs m (a ++ b) st r := by
  obtain ⟨r, st'⟩ := r
  cases r with
  | file fd f name => exact ⟨First.append_left ha h.1, hq.took h.2⟩
  | next =>
    refine ⟨?_, hq.trans h.2⟩
    intro q hq
    rcases List.mem_append.1 hq with h' | h'
    · exact ha q h'
    · exact h.1 q h'
  | fail =>
    obtain ⟨q, h1, h2⟩ := h.2.2
    exact ⟨hq.trans h.1, h.2.1, q, List.mem_append_right _ h1, h2⟩

theorem Out.fail_right {fs : Fs} {m : Mod} {a : List Name} (b : List Name) {st st' : St} (h : Out fs m a st (.fail, st')) : Out fs m (a ++ b) st (.fail, st') := by
  obtain ⟨h1, h2, q, h3, h4⟩ := h
  exact ⟨h1, h2, q, List.mem_append_left _ h3, h4⟩

/-! ### Directories -/

/-- A directory that may be missing, with a slash. -/
def preOf : Option Name → Name
  | none => []
  | some d => d ++ ['/']

/-- The rest of the directory. -/
def subOf : List Name → Option Name
  | [] => none
  | c :: cs => some (c ++ slashed cs)

theorem slashed_cons (c : Name) (cs : List Name) : slashed (c :: cs) = '/' :: (c ++ slashed cs) := rfl

theorem rel_slash (c : Name) (cs : List Name) : c ++ slashed cs ++ ['/'] = ((c :: cs).map (· ++ ['/'])).flatten := by
  induction cs generalizing c with
  | nil => simp [slashed]
  | cons d cs ih =>
    rw [slashed_cons, List.map_cons, List.flatten_cons, ← ih]
    simp

theorem joinName_eq (dir : Option Name) (cs : List Name) (f : Name) : joinName dir (subOf cs) f = preOf dir ++ (cs.map (· ++ ['/'])).flatten ++ f := by
  cases cs with
  | nil => cases dir <;> simp [joinName, subOf, preOf]
  | cons c cs =>
    rw [← rel_slash]
    cases dir <;> simp [joinName, subOf, preOf]

theorem chop_rel (c : Name) (cs : List Name) (hc : '/' ∉ c) : chop (c ++ slashed cs) = subOf cs := by
  have : (c ++ slashed cs).dropWhile (· ≠ '/') = slashed cs := by
    induction c with
    | nil =>
      cases cs with
      | nil => rfl
      | cons d cs => rw [slashed_cons]; simp
    | cons a c ih =>
      rw [List.cons_append, List.dropWhile_cons, if_pos (by simp only [decide_eq_true_eq]; intro h; exact hc (by rw [h]; simp))]
      exact ih (fun h => hc (by simp [h]))
  unfold chop
  rw [this]
  cases cs with
  | nil => rfl
  | cons d cs => rfl

theorem below_cons (pre : Name) (c : Name) (cs files : List Name) :
    below pre (c :: cs) files = files.map (fun f => pre ++ ((c :: cs).map (· ++ ['/'])).flatten ++ f) ++ below pre cs files := by
  unfold below
  rw [suffixes, List.flatMap_cons]

theorem below_nil (pre : Name) (files : List Name) : below pre [] files = files.map (fun f => pre ++ f) := by
  simp [below, suffixes]

theorem explore_out (x : Ctx) (dir : Option Name) : ∀ (cs : List Name) (n : Nat) (st : St), (∀ c ∈ cs, c ≠ [] ∧ '/' ∉ c) → cs.length < n →
    Out x.fs x.m (below (preOf dir) cs (x.file :: x.base.toList)) st (explore x dir n (subOf cs) st) := by
  intro cs
  induction cs with
  | nil =>
    intro n st _ hn
    obtain ⟨n, rfl⟩ : ∃ k, n = k + 1 := ⟨n - 1, by omega⟩
    have h := attempt_att x dir none x.file x.base st
    have hj : (x.file :: x.base.toList).map (joinName dir none) = below (preOf dir) [] (x.file :: x.base.toList) := by
      rw [below_nil]
      apply List.map_congr_left
      intro f _
      have := joinName_eq dir [] f
      simpa [subOf] using this
    rw [hj] at h
    show Out _ _ _ _ (explore x dir (n + 1) none st)
    unfold explore
    generalize attempt x dir none x.file x.base st = r at h ⊢
    obtain ⟨r, st1⟩ := r
    cases r with
    | some r => obtain ⟨fd, f, name⟩ := r; exact h
    | none =>
      simp only
      split
      · exact ⟨h.1, h.2.1⟩
      · next hs => exact ⟨h.2.1, not_or.1 hs, h.2.2 hs⟩
  | cons c cs ih =>
    intro n st hc hn
    obtain ⟨n, rfl⟩ : ∃ k, n = k + 1 := ⟨n - 1, by omega⟩
    have h := attempt_att x dir (subOf (c :: cs)) x.file x.base st
    have hj : (x.file :: x.base.toList).map (joinName dir (subOf (c :: cs))) =
        (x.file :: x.base.toList).map (fun f => preOf dir ++ ((c :: cs).map (· ++ ['/'])).flatten ++ f) := by
      apply List.map_congr_left
      intro f _
      exact joinName_eq dir (c :: cs) f
    rw [hj] at h
    rw [below_cons]
    unfold explore
    generalize attempt x dir (subOf (c :: cs)) x.file x.base st = r at h ⊢
    obtain ⟨r, st1⟩ := r
    cases r with
    | some r => obtain ⟨fd, f, name⟩ := r; exact ⟨First.append_right _ h.1, h.2⟩
    | none =>
      simp only
      split
      · have hi := ih n st1 (fun d hd => hc d (by simp [hd])) (by simpa using hn)
        have hch := chop_rel c cs (hc c (by simp)).2
        simp only [subOf, hch]
        cases cs with
        | nil => exact Out.append h.1 h.2.1 hi
        | cons d cs =>
          have hd := (hc d (by simp)).1
          obtain ⟨a, d, rfl⟩ : ∃ a t, d = a :: t := by cases d with | nil => exact absurd rfl hd | cons a t => exact ⟨a, t, rfl⟩
          exact Out.append h.1 h.2.1 hi
      · next hs =>
        apply Out.fail_right
        exact ⟨h.2.1, not_or.1 hs, h.2.2 hs⟩

theorem basename_self (b : Name) (h : '/' ∉ b) : basename b = b := by
  unfold basename
  have := List.takeWhile_append_of_pos (p := fun x => decide (x ≠ '/')) (l₁ := b.reverse) (l₂ := []) ?_
  · rw [List.append_nil, List.takeWhile_nil, List.append_nil] at this
    rw [this, List.reverse_reverse]
  intro c hc
  simp only [decide_eq_true_eq]
  intro h'
  exact h (by rw [← h']; exact List.mem_reverse.1 hc)

theorem basename_dir (u b : Name) (h : '/' ∉ b) : basename (u ++ '/' :: b) = b := by
  unfold basename
  have : (u ++ '/' :: b).reverse = b.reverse ++ '/' :: u.reverse := by simp
  rw [this, List.takeWhile_append_of_pos, List.takeWhile_cons_of_neg (by simp), List.append_nil, List.reverse_reverse]
  intro c hc
  simp only [decide_eq_true_eq]
  intro h'
  exact h (by rw [← h']; exact List.mem_reverse.1 hc)

theorem lastPart_spec (s : Name) : '/' ∉ lastPart s ∧ (s = lastPart s ∨ ∃ u, s = u ++ '/' :: lastPart s) := by
  induction s with
  | nil => simp [lastPart]
  | cons c l ih =>
    unfold lastPart
    by_cases h : '/' ∈ c :: l
    · rw [if_pos h]
      refine ⟨ih.1, Or.inr ?_⟩
      rcases ih.2 with h2 | ⟨u, h2⟩
      · by_cases hl : '/' ∈ l
        · rw [h2] at hl; exact absurd hl ih.1
        · rcases List.mem_cons.1 h with h3 | h3
          · exact ⟨[], by rw [← h3, ← h2]; rfl⟩
          · exact absurd h3 hl
      · exact ⟨c :: u, by rw [List.cons_append, ← h2]⟩
    · rw [if_neg h]; exact ⟨h, Or.inl rfl⟩

theorem lastPart_eq (s : Name) : basename s = lastPart s := by
  obtain ⟨h1, h2⟩ := lastPart_spec s
  generalize lastPart s = b at *
  rcases h2 with h2 | ⟨u, h2⟩
  · rw [h2, basename_self _ h1]
  · rw [h2, basename_dir _ _ h1]

theorem basename_idem (s : Name) : basename (basename s) = basename s := by
  rw [lastPart_eq s]
  exact basename_self _ (lastPart_spec s).1

/-- The directory as the program sees it. -/
def dirStr : Dir → Option Name
  | .here => none
  | d => some d.str

theorem dirname_inDir (d : Dir) (b : Name) (hb : '/' ∉ b) : dirname (inDir d b) = dirStr d ∧ basename (inDir d b) = b := by
  have key : ∀ s : Name, dirname (s ++ ['/'] ++ b) = some s ∧ basename (s ++ ['/'] ++ b) = b := by
    intro s
    have h : basename (s ++ ['/'] ++ b) = b := by
      have := basename_dir s b hb
      simpa using this
    refine ⟨?_, h⟩
    unfold dirname
    rw [h, if_neg]
    · congr 1
      have : (s ++ ['/'] ++ b).length - b.length - 1 = s.length := by
        simp only [List.length_append, List.length_cons, List.length_nil]; omega
      rw [this, List.append_assoc, List.take_left]
    · intro h'
      have := congrArg List.length h'
      simp only [List.length_append, List.length_cons, List.length_nil] at this
      omega
  cases d with
  | here =>
    have : inDir .here b = b := rfl
    rw [this]
    refine ⟨?_, basename_self b hb⟩
    unfold dirname
    rw [if_pos (basename_self b hb)]; rfl
  | abs cs => exact key _
  | rel cs => exact key _

theorem preOf_dirStr (d : Dir) : preOf (dirStr d) = d.pre := by cases d <;> rfl

/-! ### Elements -/

theorem single_out (x : Ctx) (dir sub : Option Name) (file : Name) (st : St) :
    Out x.fs x.m [joinName dir sub file] st (match attempt x dir sub file none st with
      | (some (fd, f, name), st) => (.file fd f name, st)
      | (none, st) => if st.errno = ENOENT ∨ st.errno = ENOTDIR then (.next, st) else (.fail, st)) := by
  have h := attempt_att x dir sub file none st
  generalize attempt x dir sub file none st = r at h ⊢
  obtain ⟨r, st1⟩ := r
  cases r with
  | some r => obtain ⟨fd, f, name⟩ := r; exact h
  | none =>
    simp only
    split
    · exact ⟨h.1, h.2.1⟩
    · next hs => exact ⟨h.2.1, not_or.1 hs, h.2.2 hs⟩

theorem altPlace_out (x : Ctx) (dir : Option Name) (file : Name) (st : St) :
    Out x.fs x.m [joinName dir none file, joinName dir (some ".dwz".toList) (basename file)] st (altPlace x dir file st) := by
  unfold altPlace
  have h := attempt_att x dir none file none st
  generalize attempt x dir none file none st = r at h ⊢
  obtain ⟨r, st1⟩ := r
  cases r with
  | some r => obtain ⟨fd, f, name⟩ := r; exact ⟨First.append_right [_] h.1, h.2⟩
  | none =>
    simp only
    split
    · have h2 := tryOpen_att x.fs x.m (joinName dir (some ".dwz".toList) (basename file)) st1
      apply Out.append (a := [joinName dir none file]) (st1 := st1) h.1 h.2.1
      generalize tryOpen x.fs x.m (joinName dir (some ".dwz".toList) (basename file)) st1 = r at h2 ⊢
      obtain ⟨r, st2⟩ := r
      cases r with
      | some r => obtain ⟨fd, f, name⟩ := r; exact h2
      | none =>
        simp only
        split
        · exact ⟨h2.1, h2.2.1⟩
        · next hs => exact ⟨h2.2.1, not_or.1 hs, h2.2.2 hs⟩
    · next hs =>
      apply Out.fail_right (a := [joinName dir none file])
      exact ⟨h.2.1, not_or.1 hs, h.2.2 hs⟩

theorem slashed_length (cs : List Name) (h : ∀ c ∈ cs, c ≠ [] ∧ '/' ∉ c) : cs.length ≤ (slashed cs).length := by
  induction cs with
  | nil => simp
  | cons c cs ih =>
    have := ih (fun d hd => h d (by simp [hd]))
    rw [slashed_cons]
    simp only [List.length_cons, List.length_append]
    omega

theorem element_debug (x : Ctx) (d : Dir) (hd : d.Ok) (el : Dir) (hel : el.Ok) (hne : el ≠ .abs []) (hdw : x.m.dw = none) (st : St) :
    Out x.fs x.m (places d (x.file :: x.base.toList) el) st (element x (dirStr d) el.str st) := by
  cases el with
  | here =>
    simp only [Dir.str, element, hdw, Option.isSome_none, Bool.false_eq_true, if_false, places, List.take_succ_cons, List.take_zero, List.map_cons, List.map_nil]
    have := single_out x (dirStr d) none x.file st
    have hj := joinName_eq (dirStr d) [] x.file
    simp only [subOf, List.map_nil, List.flatten_nil, List.append_nil, preOf_dirStr] at hj
    rw [hj] at this
    exact this
  | abs cs =>
    cases cs with
    | nil => exact absurd rfl hne
    | cons c cs =>
      simp only [Dir.str, slashed_cons, element, hdw, Option.isSome_none, Bool.false_eq_true, if_false, places]
      cases d with
      | here => exact ⟨by simp, Quiet.refl _⟩
      | rel ds =>
        cases ds with
        | nil => exact absurd rfl hd.1
        | cons a ds =>
          obtain ⟨h1, h2⟩ := hd.2 a (by simp)
          obtain ⟨ch, a, rfl⟩ : ∃ ch t, a = ch :: t := by cases a with | nil => exact absurd rfl h1 | cons a t => exact ⟨a, t, rfl⟩
          simp only [dirStr, Dir.str, List.cons_append]
          split
          · next h => exact absurd (by rw [← (List.cons.inj (Option.some.inj h)).1]; simp) h2
          · exact ⟨by simp, Quiet.refl _⟩
      | abs ds =>
        cases ds with
        | nil =>
          simp only [dirStr, Dir.str, slashed, List.map_nil, List.flatten_nil]
          exact ⟨by simp, Quiet.refl _⟩
        | cons a ds =>
          simp only [dirStr, Dir.str, slashed_cons]
          have hch : chop ('/' :: (a ++ slashed ds)) = some (a ++ slashed ds) := rfl
          rw [hch]
          obtain ⟨h1, h2⟩ := hd a (by simp)
          have hl := slashed_length ds (fun e he => hd e (by simp [he]))
          have h := explore_out x (some ('/' :: (c ++ slashed cs))) (a :: ds) ((a ++ slashed ds).length + 3) st hd
            (by simp only [List.length_cons, List.length_append]; omega)
          obtain ⟨ch, a, rfl⟩ : ∃ ch t, a = ch :: t := by cases a with | nil => exact absurd rfl h1 | cons a t => exact ⟨a, t, rfl⟩
          exact h
  | rel cs =>
    cases cs with
    | nil => exact absurd rfl hel.1
    | cons a cs =>
      obtain ⟨h1, h2⟩ := hel.2 a (by simp)
      have hl := slashed_length cs (fun e he => hel.2 e (by simp [he]))
      have h := explore_out x (dirStr d) (a :: cs) ((a ++ slashed cs).length + 3) st hel.2
        (by simp only [List.length_cons, List.length_append]; omega)
      rw [preOf_dirStr] at h
      obtain ⟨ch, a, rfl⟩ : ∃ ch t, a = ch :: t := by cases a with | nil => exact absurd rfl h1 | cons a t => exact ⟨a, t, rfl⟩
      simp only [Dir.str, List.cons_append, element]
      split
      · next h => cases h
      · next h => exact absurd (by rw [← (List.cons.inj h).1]; simp) h2
      · simp only [hdw, Option.isSome_none, Bool.false_eq_true, if_false, places]
        exact h

theorem element_alt (x : Ctx) (d : Dir) (el : Dir) (hel : el.Ok) (hne : el ≠ .abs []) (a : Alt) (hdw : x.m.dw = some a) (st : St) :
    Out x.fs x.m (altPlaces d x.file (lastPart x.file) el) st (element x (dirStr d) el.str st) := by
  have hpre : ∀ f, joinName (dirStr d) none f = d.pre ++ f := by
    intro f
    have hj := joinName_eq (dirStr d) [] f
    simpa [subOf, preOf_dirStr] using hj
  cases el with
  | here =>
    simp only [Dir.str, element, hdw, Option.isSome_some, if_true, altPlaces]
    have := altPlace_out x (dirStr d) x.file st
    have h2 : joinName (dirStr d) (some ".dwz".toList) (basename x.file) = d.pre ++ ".dwz/".toList ++ lastPart x.file := by
      have := joinName_eq (dirStr d) [".dwz".toList] (basename x.file)
      rw [preOf_dirStr, lastPart_eq] at this
      rw [lastPart_eq]
      simpa [subOf, slashed] using this
    rw [hpre, h2] at this
    exact this
  | abs cs =>
    cases cs with
    | nil => exact absurd rfl hne
    | cons c cs =>
      simp only [Dir.str, slashed_cons, element, hdw, Option.isSome_some, if_true, altPlaces]
      have := altPlace_out x (some ('/' :: (c ++ slashed cs))) (basename x.file) st
      rw [basename_idem, lastPart_eq] at this
      rw [lastPart_eq]
      simpa [joinName] using this
  | rel cs =>
    cases cs with
    | nil => exact absurd rfl hel.1
    | cons a cs =>
      obtain ⟨h1, h2⟩ := hel.2 a (by simp)
      have h := single_out x (dirStr d) (some (a ++ slashed cs)) x.file st
      have hj := joinName_eq (dirStr d) (a :: cs) x.file
      rw [← rel_slash, preOf_dirStr] at hj
      have hj' : joinName (dirStr d) (some (a ++ slashed cs)) x.file = d.pre ++ (Dir.rel (a :: cs)).str ++ '/' :: x.file := by
        rw [show some (a ++ slashed cs) = subOf (a :: cs) from rfl, hj]
        simp [Dir.str]
      rw [hj'] at h
      obtain ⟨ch, a, rfl⟩ : ∃ ch t, a = ch :: t := by cases a with | nil => exact absurd rfl h1 | cons a t => exact ⟨a, t, rfl⟩
      simp only [Dir.str, List.cons_append, element]
      split
      · next h => cases h
      · next h => exact absurd (by rw [← (List.cons.inj h).1]; simp) h2
      · simp only [hdw, Option.isSome_some, if_true, altPlaces]
        exact h

/-! ### Any path at all -/

/-- What holds of an outcome whatever the path looks like. -/
def Any (fs : Fs) (m : Mod) (st : St) : Hit × St → Prop
  | (.file fd f name, st') => fs name = .ok f ∧ f.ino ≠ m.main ∧ Took fd st st'
  | (_, st') => Quiet st st'

theorem Out.any {fs : Fs} {m : Mod} {names : List Name} {st : St} {r : Hit × St} (h : Out fs m names st r) : Any fs m st r := by
  obtain ⟨r, st'⟩ := r
  cases r with
  | file fd f name => obtain ⟨⟨a, b, h1, h2, h3, h4⟩, h5⟩ := h; exact ⟨h2, h3, h5⟩
  | next => exact h.2
  | fail => exact h.1

theorem Any.quiet {fs : Fs} {m : Mod} {st st1 : St} {r : Hit × St} (hq : Quiet st st1) (h : Any fs m st1 r) : Any fs m st r := by
  obtain ⟨r, st'⟩ := r
  cases r with
  | file fd f name => exact ⟨h.1, h.2.1, hq.took h.2.2⟩
  | next => exact hq.trans h
  | fail => exact hq.trans h

theorem explore_any (x : Ctx) (dir : Option Name) : ∀ (n : Nat) (sub : Option Name) (st : St), Any x.fs x.m st (explore x dir n sub st) := by
  intro n
  induction n with
  | zero => intro sub st; exact Quiet.refl _
  | succ n ih =>
    intro sub st
    unfold explore
    have h := attempt_att x dir sub x.file x.base st
    generalize attempt x dir sub x.file x.base st = r at h ⊢
    obtain ⟨r, st1⟩ := r
    cases r with
    | some r =>
      obtain ⟨fd, f, name⟩ := r
      obtain ⟨⟨a, b, h1, h2, h3, h4⟩, h5⟩ := h
      exact ⟨h2, h3, h5⟩
    | none =>
      simp only
      split
      · cases sub with
        | none => exact h.2.1
        | some s =>
          simp only
          split
          · exact Any.quiet h.2.1 (ih _ _)
          · exact h.2.1
          · exact Any.quiet h.2.1 (ih _ _)
      · exact h.2.1

theorem element_any (x : Ctx) (fdir : Option Name) (p : Name) (st : St) : Any x.fs x.m st (element x fdir p st) := by
  unfold element
  split
  · split
    · exact (altPlace_out _ _ _ _).any
    · exact (single_out _ _ _ _ _).any
  · split
    · exact (altPlace_out _ _ _ _).any
    · split
      · split
        · exact explore_any _ _ _ _ _
        · exact Quiet.refl _
        · exact explore_any _ _ _ _ _
      · exact Quiet.refl _
  · split
    · exact (single_out _ _ _ _ _).any
    · exact explore_any _ _ _ _ _

/-! ### Validation -/

theorem openCheck_true (fd : Nat) (f : File) (id : List Byte) (st : St) : (openCheck fd f id st).1 = true ↔ ∃ b, f.elf = some (b, some id) := by
  unfold openCheck
  cases f.elf with
  | none => simp
  | some q =>
    obtain ⟨b, i⟩ := q
    simp only
    by_cases h : i = some id
    · rw [if_pos h]; simp [h]
    · rw [if_neg h]; simp [h]

theorem validate_true (m : Mod) (fd : Nat) (f : File) (check : Bool) (crc : BitVec 32) (st : St) : (validate m fd f check crc st).1 = true ↔ Fits m f check crc := by
  unfold validate Fits
  cases m.dw with
  | some a =>
    cases a with
    | link n id => exact openCheck_true _ _ _ _
    | absent => simp
    | bad => simp
  | none =>
    cases m.id with
    | some id => exact openCheck_true _ _ _ _
    | none =>
      simp only [Bool.or_eq_true, Bool.not_eq_true', checkCrc]
      cases f.content with
      | none => cases check <;> simp
      | some d =>
        simp only [decide_eq_true_eq, Hash.C08_crc_value, Option.some.injEq, exists_eq_left']
        cases check <;> simp

end Verif.Debuglink
