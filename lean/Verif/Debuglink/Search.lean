import Verif.Debuglink.Lemmas
/-!
# C92: a separate debug file is looked for in the documented places, and used only if it belongs to the file
-/
namespace Verif.Debuglink
open Verif Spec

/-! ### The path -/

theorem splitPath_one (a : Name) (h : ':' ∉ a) (r : Name) : splitPath (a ++ ':' :: r) = a :: splitPath r := by
  induction a with
  | nil => simp [splitPath]
  | cons c a ih =>
    rw [List.cons_append, splitPath, if_neg (fun h' => h (by rw [h']; simp)), ih (fun h' => h (by simp [h']))]

theorem splitPath_last (a : Name) (h : ':' ∉ a) : splitPath a = [a] := by
  induction a with
  | nil => simp [splitPath]
  | cons c a ih =>
    rw [splitPath, if_neg (fun h' => h (by rw [h']; simp)), ih (fun h' => h (by simp [h']))]

theorem splitPath_join (a : Name) (l : List Name) (h : ∀ b ∈ a :: l, ':' ∉ b) : splitPath (a ++ (l.map (':' :: ·)).flatten) = a :: l := by
  induction l generalizing a with
  | nil => rw [List.map_nil, List.flatten_nil, List.append_nil]; exact splitPath_last a (h a (by simp))
  | cons b l ih =>
    rw [List.map_cons, List.flatten_cons, List.cons_append, splitPath_one a (h a (by simp)), ih b (fun c hc => h c (by simp [List.mem_cons.1 hc]))]

/-- An element as it is written. -/
def elStr (e : El) : Name := signStr e.sign ++ e.dir.str

theorem pathStr_cons (g : Option Bool) (e : El) (l : List El) : pathStr g (e :: l) = signStr g ++ (elStr e ++ ((l.map elStr).map (':' :: ·)).flatten) := by
  simp only [pathStr, elStr, List.map_map, List.append_assoc]
  rfl

theorem signStr_colon (s : Option Bool) : ':' ∉ signStr s := by
  cases s with
  | none => simp [signStr]
  | some b => cases b <;> simp [signStr]

theorem elStr_colon {e : El} (h : e.Ok) : ':' ∉ elStr e := by
  unfold elStr
  intro h'
  rcases List.mem_append.1 h' with h1 | h1
  · exact signStr_colon _ h1
  · exact h.2.1 h1

theorem sign_some (b d : Bool) (p : Name) : sign d (signStr (some b) ++ p) = (b, p) := by cases b <;> rfl

theorem sign_none (d : Bool) (p : Name) (h : ∀ c l, p = c :: l → c ≠ '+' ∧ c ≠ '-') : sign d p = (d, p) := by
  unfold sign
  split
  · next q => exact absurd rfl (h _ q rfl).1
  · next q => exact absurd rfl (h _ q rfl).2
  · rfl

theorem sign_el (e : El) (h : e.Ok) (d : Bool) : sign d (elStr e) = (e.sign.getD d, e.dir.str) := by
  unfold elStr
  cases hs : e.sign with
  | none => exact sign_none d _ (h.2.2.1 hs)
  | some b => exact sign_some b d _

theorem sign_path (g : Option Bool) (es : List El) (h : PathOk g es) :
    (sign true (pathStr g es)).1 = g.getD true ∧ splitPath (sign true (pathStr g es)).2 = es.map elStr := by
  obtain ⟨h1, h2, h3⟩ := h
  cases es with
  | nil => exact absurd rfl h2
  | cons e l =>
    have hs : sign true (pathStr g (e :: l)) = (g.getD true, elStr e ++ ((l.map elStr).map (':' :: ·)).flatten) := by
      rw [pathStr_cons]
      cases g with
      | some b => exact sign_some b true _
      | none =>
        apply sign_none
        have hn := h3 rfl e l rfl
        intro c r hc
        have ho := (h1 e (by simp)).2.2.1 hn
        have he : elStr e = e.dir.str := by unfold elStr; rw [hn]; rfl
        rw [show signStr none = [] from rfl, List.nil_append, he] at hc
        cases hd : e.dir.str with
        | cons a t =>
          rw [hd, List.cons_append, List.cons.injEq] at hc
          rw [← hc.1]
          exact ho a t hd
        | nil =>
          rw [hd, List.nil_append] at hc
          cases l with
          | nil => cases hc
          | cons e' l =>
            rw [List.map_cons, List.map_cons, List.flatten_cons, List.cons_append, List.cons.injEq] at hc
            rw [← hc.1]
            decide
    rw [hs]
    refine ⟨rfl, ?_⟩
    rw [List.map_cons]
    apply splitPath_join
    intro b hb
    rcases List.mem_cons.1 hb with h' | h'
    · rw [h']; exact elStr_colon (h1 e (by simp))
    · obtain ⟨e', he', rfl⟩ := List.mem_map.1 h'
      exact elStr_colon (h1 e' (by simp [he']))

/-! ### The search by name -/

theorem loop_spec (x : Ctx) (fdir : Option Name) (g : Option Bool) (can : Bool) (crc : BitVec 32) (fn : Option (Dir × Name)) (link : Option Name) :
    ∀ (es : List El), (∀ e ∈ es, e.Ok) → (∀ e ∈ es, ∀ st, Out x.fs x.m (tried x.m fn link e.dir) st (element x fdir e.dir.str st)) →
    (∀ e ∈ es, ((e.sign.getD (g.getD true)) && can) = Checked g e link crc) → ∀ st,
    Searched x.fs x.m g es fn link crc ((pathLoop x fdir (g.getD true) can crc (es.map elStr) st).1.map (·.2)) (pathLoop x fdir (g.getD true) can crc (es.map elStr) st).2.errno := by
  intro es
  induction es with
  | nil => intro _ _ _ st; exact Or.inl ⟨rfl, by simp⟩
  | cons e es ih =>
    intro hok hel hch st
    have ih := ih (fun e' he => hok e' (by simp [he])) (fun e' he => hel e' (by simp [he])) (fun e' he => hch e' (by simp [he]))
    have lift : (∀ n, ¬ Gives x.fs x.m g fn link crc e n) → ∀ r errno, Searched x.fs x.m g es fn link crc r errno → Searched x.fs x.m g (e :: es) fn link crc r errno := by
      intro hn r errno h
      cases r with
      | some name =>
        obtain ⟨pre, e', post, h1, h2, h3⟩ := h
        refine ⟨e :: pre, e', post, by rw [h1]; rfl, h2, ?_⟩
        intro e'' he
        rcases List.mem_cons.1 he with h' | h'
        · rw [h']; exact hn
        · exact h3 e'' h'
      | none =>
        rcases h with ⟨h1, h2⟩ | ⟨h1, h2, e', h3, h4⟩
        · refine Or.inl ⟨h1, ?_⟩
          intro e'' he
          rcases List.mem_cons.1 he with h' | h'
          · rw [h']; exact hn
          · exact h2 e'' h'
        · exact Or.inr ⟨h1, h2, e', by simp [h3], h4⟩
    rw [List.map_cons]
    unfold pathLoop
    rw [sign_el e (hok e (by simp)) (g.getD true)]
    have h := hel e (by simp) st
    generalize element x fdir e.dir.str st = r at h ⊢
    obtain ⟨r, st1⟩ := r
    cases r with
    | next =>
      simp only
      apply lift
      · rintro n ⟨f, hf, _⟩
        exact h.1 _ (First.mem hf).1 (First.mem hf).2
      · exact ih st1
    | fail => exact Or.inr ⟨h.2.1.1, h.2.1.2, e, by simp, h.2.2⟩
    | file fd f name =>
      simp only
      rw [hch e (by simp)]
      have hv := validate_true x.m fd f (Checked g e link crc) crc st1
      generalize validate x.m fd f (Checked g e link crc) crc st1 = v at hv ⊢
      obtain ⟨v, st2⟩ := v
      cases v with
      | true => exact ⟨[], e, es, rfl, ⟨f, h.1, hv.1 rfl⟩, by simp⟩
      | false =>
        simp only
        apply lift
        · rintro n ⟨f', hf, hfit⟩
          rw [← (First.unique h.1 hf).2] at hfit
          exact absurd (hv.2 hfit) (by simp)
        · exact ih _

theorem dirStr_name (fn : Option (Dir × Name)) (h : NameOk fn) : (nameStr fn).bind dirname = dirStr (dirOf fn) ∧ (dirOf fn).Ok := by
  cases fn with
  | none => exact ⟨rfl, trivial⟩
  | some p =>
    obtain ⟨d, b⟩ := p
    obtain ⟨h1, h2⟩ := h d b rfl
    exact ⟨(dirname_inDir d b h2).1, h1⟩

theorem find_spec (fs : Fs) (m : Mod) (g : Option Bool) (es : List El) (hp : PathOk g es) (fn : Option (Dir × Name)) (hf : NameOk fn) (link : Option Name) (crc : BitVec 32) (st : St) :
    Searched fs m g es fn link crc ((findInPath fs m (pathStr g es) (nameStr fn) link crc st).1.map (·.2)) (findInPath fs m (pathStr g es) (nameStr fn) link crc st).2.errno := by
  obtain ⟨hs1, hs2⟩ := sign_path g es hp
  obtain ⟨hd1, hd2⟩ := dirStr_name fn hf
  unfold findInPath
  simp only
  rw [hs1, hs2, hd1]
  cases link with
  | some file =>
    simp only
    apply loop_spec ⟨fs, m, file, none⟩ _ g _ crc fn (some file) es hp.1
    · intro e he st
      have ho := hp.1 e he
      cases hdw : m.dw with
      | none =>
        have := element_debug ⟨fs, m, file, none⟩ (dirOf fn) hd2 e.dir ho.1 ho.2.2.2 hdw st
        simpa [tried, hdw] using this
      | some a =>
        have := element_alt ⟨fs, m, file, none⟩ (dirOf fn) e.dir ho.1 ho.2.2.2 a hdw st
        simpa [tried, hdw] using this
    · intro e _; simp [Checked, checks]
  | none =>
    have hnone : ((∀ el, tried m fn none el = []) → ∀ errno, errno = 0 → Searched fs m g es fn none crc none errno) := by
      intro ht errno he
      refine Or.inl ⟨he, ?_⟩
      rintro e _ n ⟨f, hf, _⟩
      have := (First.mem hf).1
      rw [ht] at this
      cases this
    simp only
    cases fn with
    | none => exact hnone (by intro el; cases h : m.dw <;> simp [tried, h]) _ rfl
    | some p =>
      obtain ⟨d, b⟩ := p
      obtain ⟨h1, h2⟩ := hf d b rfl
      have hb : (nameStr (some (d, b))).map basename = some b := by
        show some (basename (inDir d b)) = some b
        rw [(dirname_inDir d b h2).2]
      rw [hb]
      simp only
      cases hdw : m.dw with
      | some a =>
        simp only [Option.isSome_some, if_true]
        exact hnone (by intro el; simp [tried, hdw]) _ rfl
      | none =>
        simp only [Option.isSome_none, Bool.false_eq_true, if_false]
        apply loop_spec ⟨fs, m, b ++ ".debug".toList, some b⟩ _ g _ crc (some (d, b)) none es hp.1
        · intro e he st
          have ho := hp.1 e he
          have := element_debug ⟨fs, m, b ++ ".debug".toList, some b⟩ d h1 e.dir ho.1 ho.2.2.2 hdw st
          simpa [tried, hdw, dirOf] using this
        · intro e _; simp [Checked]

theorem searched_errno {fs : Fs} {m : Mod} {g : Option Bool} {es : List El} {fn : Option (Dir × Name)} {link : Option Name} {crc : BitVec 32} {name : Name} {a : Nat}
    (h : Searched fs m g es fn link crc (some name) a) : Searched fs m g es fn link crc (some name) 0 := h

theorem byName_spec (fs : Fs) (m : Mod) (g : Option Bool) (es : List El) (hp : PathOk g es) (fn canon : Option (Dir × Name)) (hf : NameOk fn) (hc : NameOk canon) (link : Option Name)
    (crc : BitVec 32) (st : St) :
    NameSearch fs m g es fn canon link crc ((byName fs (pathStr g es) m (nameStr fn) link crc (nameStr canon) st).1.map (·.2))
      (byName fs (pathStr g es) m (nameStr fn) link crc (nameStr canon) st).2.errno := by
  have h1 := find_spec fs m g es hp fn hf link crc st
  have h1c := find_spec fs m g es hp canon hc link crc st
  unfold byName
  by_cases hfc : nameStr fn = nameStr canon
  · -- the two names are the same
    rw [← hfc] at h1c
    generalize hr : findInPath fs m (pathStr g es) (nameStr fn) link crc st = r at h1 h1c ⊢
    obtain ⟨r, st1⟩ := r
    cases r with
    | some r =>
      obtain ⟨fd, name⟩ := r
      simp only [Option.map_some] at h1 ⊢
      refine ⟨?_, by simp, by simp⟩
      intro n hn
      rw [← Option.some.inj hn]
      exact Or.inl h1
    | none =>
      have hres : byName fs (pathStr g es) m (nameStr fn) link crc (nameStr canon) st = (none, st1) := by
        unfold byName
        rw [hr, ← hfc]
        cases nameStr fn with
        | none => rfl
        | some f => simp only; rw [if_neg (by simp)]
      unfold byName at hres
      rw [hr] at hres
      rw [hres]
      simp only [Option.map_none] at h1 h1c ⊢
      refine ⟨by simp, ?_, ?_⟩
      · intro _ h0
        rw [h0] at h1 h1c
        exact ⟨h1, fun c _ hcc => by rw [← hcc]; exact h1c⟩
      · intro _ _; exact Or.inl h1
  · generalize hr : findInPath fs m (pathStr g es) (nameStr fn) link crc st = r at h1 ⊢
    obtain ⟨r, st1⟩ := r
    cases r with
    | some r =>
      obtain ⟨fd, name⟩ := r
      simp only [Option.map_some] at h1 ⊢
      refine ⟨?_, by simp, by simp⟩
      intro n hn
      rw [← Option.some.inj hn]
      exact Or.inl h1
    | none =>
      simp only [Option.map_none] at h1 ⊢
      cases hn : nameStr fn with
      | none =>
        have hfn : fn = none := by cases fn with | none => rfl | some p => simp [nameStr] at hn
        simp only
        refine ⟨by simp, ?_, ?_⟩
        · intro _ h0
          rw [h0] at h1
          exact ⟨h1, fun c hc => by rw [hfn] at hc; cases hc⟩
        · intro _ _; exact Or.inl h1
      | some f =>
        cases hcn : nameStr canon with
        | none =>
          have hcc : canon = none := by cases canon with | none => rfl | some p => simp [nameStr] at hcn
          simp only
          refine ⟨by simp, ?_, ?_⟩
          · intro _ h0
            rw [h0] at h1
            exact ⟨h1, fun c _ hc => by rw [hcc] at hc; cases hc⟩
          · intro _ _; exact Or.inl h1
        | some c =>
          obtain ⟨cc, hcc⟩ : ∃ cc, canon = some cc := by
            cases canon with | none => simp [nameStr] at hcn | some p => exact ⟨p, rfl⟩
          have hfs : fn.isSome = true := by
            cases fn with | none => simp [nameStr] at hn | some p => rfl
          simp only
          by_cases h0 : st1.errno = 0
          · rw [if_pos ⟨h0, fun h => hfc (by rw [hn, hcn, h])⟩]
            have h2 := find_spec fs m g es hp canon hc link crc st1
            rw [hcn, hcc] at h2
            rw [h0] at h1
            generalize findInPath fs m (pathStr g es) (some c) link crc st1 = r2 at h2 ⊢
            obtain ⟨r2, st2⟩ := r2
            cases r2 with
            | some r2 =>
              obtain ⟨fd, name⟩ := r2
              simp only [Option.map_some] at h2 ⊢
              refine ⟨?_, by simp, by simp⟩
              intro n hn
              rw [← Option.some.inj hn]
              exact Or.inr ⟨cc, hfs, hcc, h1, h2⟩
            | none =>
              simp only [Option.map_none] at h2 ⊢
              refine ⟨by simp, ?_, ?_⟩
              · intro _ h0
                rw [h0] at h2
                refine ⟨h1, fun c' _ hc' => ?_⟩
                rw [hcc] at hc'
                rw [← Option.some.inj hc']
                exact h2
              · intro _ _; exact Or.inr ⟨cc, hcc, h2⟩
          · rw [if_neg (fun h => h0 h.1)]
            refine ⟨by simp, fun _ h => absurd h h0, ?_⟩
            intro _ _; exact Or.inl h1

/-- **C92, the search by name.**  For every file system, every path, every file name with the name of what it links to, every link and CRC, and a module without build ID: the outcome of
`dwfl_standard_find_debuginfo` is the documented one.  The elements are tried in their order; an element leads to the first file there is at its places; the search ends with the first one that belongs to the
module; if no element has one, nothing is found, unless a name could not be opened for another reason than that it does not exist. -/
theorem C92_by_name (fs : Fs) (real : Name → Name) (m : Mod) (hid : m.id = none) (g : Option Bool) (es : List El) (hp : PathOk g es) (fn canon : Option (Dir × Name)) (hf : NameOk fn)
    (hc : NameOk canon) (link : Option Name) (crc : BitVec 32) (st : St) :
    ∃ r st', standardFind fs real (pathStr g es) m (nameStr fn) link crc (nameStr canon) st = .ok (r, st') ∧ NameSearch fs m g es fn canon link crc (r.map (·.2)) st'.errno := by
  refine ⟨_, _, ?_, byName_spec fs m g es hp fn canon hf hc link crc st⟩
  simp only [standardFind, hid]

/-! ### The search by ID -/

theorem hex_eq : ∀ b : Byte, hex b = hex2 b := by
  have h : ∀ k : Fin 256, hex (BitVec.ofNat 8 k.val) = hex2 (BitVec.ofNat 8 k.val) := by decide +kernel
  intro b
  have := h ⟨b.toNat, b.isLt⟩
  simpa using this

theorem hex_length (l : List Byte) : (l.map hex).flatten.length = 2 * l.length := by
  induction l with
  | nil => rfl
  | cons b l ih => rw [List.map_cons, List.flatten_cons, List.length_append, ih]; simp [hex]; omega

theorem idName_eq (id : List Byte) (h : 3 ≤ id.length) (h' : id.length ≤ 64) : ∃ n, idName true id = some n ∧ ∀ dir, dir ++ n = idPlace dir id := by
  cases id with
  | nil => simp at h
  | cons b l =>
    simp only [idName, if_true]
    rw [if_pos]
    · refine ⟨_, rfl, ?_⟩
      intro dir
      have hm : l.map hex = l.map hex2 := List.map_congr_left fun c _ => hex_eq c
      simp [idPlace, hex_eq, hm, List.flatMap]
    · have := hex_length l
      simp only [List.length_cons] at h'
      simp only [List.length_append, this, hex]
      simp
      omega

theorem idLoop_spec (fs : Fs) (real : Name → Name) (n : Name) : ∀ (l : List Name) (st : St),
    (∃ pre d post f, l = pre ++ d :: post ∧ (sign true d).2.head? = some '/' ∧ fs ((sign true d).2 ++ n) = .ok f ∧
      (∀ d' ∈ pre, (sign true d').2.head? = some '/' → ∃ e, fs ((sign true d').2 ++ n) = .error e) ∧
      ∃ st', idLoop fs real n l st = (some (st.next, f, real ((sign true d).2 ++ n)), st') ∧ Took st.next st st') ∨
    ((∀ d' ∈ l, (sign true d').2.head? = some '/' → ∃ e, fs ((sign true d').2 ++ n) = .error e) ∧
      ∃ st', idLoop fs real n l st = (none, st') ∧ Quiet st st' ∧ (st'.errno = st.errno ∨ ∃ d ∈ l, (sign true d).2.head? = some '/' ∧ fs ((sign true d).2 ++ n) = .error st'.errno)) := by
  intro l
  induction l with
  | nil => intro st; exact Or.inr ⟨by simp, st, rfl, Quiet.refl _, Or.inl rfl⟩
  | cons d l ih =>
    intro st
    by_cases hd : (sign true d).2.head? = some '/'
    · cases hf : fs ((sign true d).2 ++ n) with
      | ok f =>
        refine Or.inl ⟨[], d, l, f, rfl, hd, hf, by simp, { st with next := st.next + 1, opened := st.next :: st.opened }, ?_, ⟨rfl, rfl, rfl⟩⟩
        simp only [idLoop, hd, if_true, sysOpen, hf]
      | error e =>
        have he : idLoop fs real n (d :: l) st = idLoop fs real n l { st with errno := e } := by
          simp only [idLoop, hd, if_true, sysOpen, hf]
        rw [he]
        rcases ih { st with errno := e } with ⟨pre, d', post, f, h1, h2, h3, h4, st', h5, h6⟩ | ⟨h1, st', h2, h3, h4⟩
        · refine Or.inl ⟨d :: pre, d', post, f, by rw [h1]; rfl, h2, h3, ?_, st', h5, ⟨h6.opened, h6.bad, h6.elf⟩⟩
          intro d'' hm
          rcases List.mem_cons.1 hm with h | h
          · rw [h]; exact fun _ => ⟨e, hf⟩
          · exact h4 d'' h
        · refine Or.inr ⟨?_, st', h2, ⟨h3.opened, h3.bad, h3.elf⟩, ?_⟩
          · intro d'' hm
            rcases List.mem_cons.1 hm with h | h
            · rw [h]; exact fun _ => ⟨e, hf⟩
            · exact h1 d'' h
          · rcases h4 with h | ⟨d', h, h'⟩
            · exact Or.inr ⟨d, by simp, hd, by rw [h]; exact hf⟩
            · exact Or.inr ⟨d', by simp [h], h'⟩
    · have he : idLoop fs real n (d :: l) st = idLoop fs real n l st := by simp only [idLoop, hd, if_false]
      rw [he]
      rcases ih st with ⟨pre, d', post, f, h1, h2, h3, h4, h5⟩ | ⟨h1, st', h2, h3, h4⟩
      · refine Or.inl ⟨d :: pre, d', post, f, by rw [h1]; rfl, h2, h3, ?_, h5⟩
        intro d'' hm
        rcases List.mem_cons.1 hm with h | h
        · rw [h]; exact fun h' => absurd h' hd
        · exact h4 d'' h
      · refine Or.inr ⟨?_, st', h2, h3, ?_⟩
        · intro d'' hm
          rcases List.mem_cons.1 hm with h | h
          · rw [h]; exact fun h' => absurd h' hd
          · exact h1 d'' h
        · rcases h4 with h | ⟨d', h, h'⟩
          · exact Or.inl h
          · exact Or.inr ⟨d', by simp [h], h'⟩

/-- The elements as the search by ID sees them. -/
theorem id_split (g : Option Bool) (es : List El) (hp : PathOk g es) (hg : g = none ∨ ∀ e l, es = e :: l → e.sign = none) :
    (splitPath (pathStr g es)).map (fun d => (sign true d).2) = es.map (fun e => e.dir.str) := by
  obtain ⟨h1, h2, h3⟩ := hp
  cases es with
  | nil => exact absurd rfl h2
  | cons e l =>
    have hs : e.sign = none := by
      rcases hg with h | h
      · exact h3 h e l rfl
      · exact h e l rfl
    have he : elStr e = e.dir.str := by unfold elStr; rw [hs]; rfl
    rw [pathStr_cons, ← List.append_assoc, splitPath_join]
    · rw [List.map_cons, List.map_cons, List.map_map]
      congr 1
      · rw [he]
        cases g with
        | none =>
          show (sign true e.dir.str).2 = _
          rw [← he, sign_el e (h1 e (by simp)), he]
        | some b => rw [sign_some]
      · apply List.map_congr_left
        intro e' he'
        show (sign true (elStr e')).2 = _
        rw [sign_el e' (h1 e' (by simp [he']))]
    · intro b hb
      rcases List.mem_cons.1 hb with h' | h'
      · rw [h']
        intro hm
        rcases List.mem_append.1 hm with h | h
        · exact signStr_colon _ h
        · exact elStr_colon (h1 e (by simp)) h
      · obtain ⟨e', he', rfl⟩ := List.mem_map.1 h'
        exact elStr_colon (h1 e' (by simp [he']))

theorem head_abs (e : El) (h : e.Ok) : e.dir.str.head? = some '/' ↔ ∃ cs, e.dir = .abs cs := by
  cases hd : e.dir with
  | here => simp [Dir.str]
  | abs cs =>
    cases cs with
    | nil => exact absurd hd h.2.2.2
    | cons c cs => simp [Dir.str, slashed_cons]
  | rel cs =>
    have ho := h.1
    rw [hd] at ho
    cases cs with
    | nil => exact absurd rfl ho.1
    | cons c cs =>
      obtain ⟨h1, h2⟩ := ho.2 c (by simp)
      cases c with
      | nil => exact absurd rfl h1
      | cons a c =>
        simp only [Dir.str, List.cons_append, List.head?_cons, Option.some.injEq, reduceCtorEq, exists_false, iff_false]
        rintro rfl
        exact h2 (by simp)

/-- `__libdwfl_open_by_build_id`. -/
theorem openById_spec (fs : Fs) (real : Name → Name) (g : Option Bool) (es : List El) (hp : PathOk g es) (hg : g = none ∨ ∀ e l, es = e :: l → e.sign = none) (id : List Byte)
    (h3 : 3 ≤ id.length) (h64 : id.length ≤ 64) (st : St) :
    (∃ q f st', IdFirst fs es id q f ∧ openById fs real (pathStr g es) true id st = .ok (some (st.next, f, real q), st') ∧ Took st.next st st') ∨
    ((∀ e ∈ es, ∀ cs, e.dir = .abs cs → ∃ n, fs (idPlace (slashed cs) id) = .error n) ∧
      ∃ st', openById fs real (pathStr g es) true id st = .ok (none, st') ∧ Quiet st st' ∧
        (st'.errno = 0 ∨ st'.errno = st.errno ∨ (st'.errno ≠ ENOENT ∧ ∃ e ∈ es, ∃ cs, e.dir = .abs cs ∧ fs (idPlace (slashed cs) id) = .error st'.errno))) := by
  obtain ⟨n, hn, hpl⟩ := idName_eq id h3 h64
  have hsp := id_split g es hp hg
  have hlen : (splitPath (pathStr g es)).length = es.length := by simpa using congrArg List.length hsp
  have hget : ∀ k : Nat, ((splitPath (pathStr g es))[k]?).map (fun d => (sign true d).2) = (es[k]?).map (fun e : El => e.dir.str) := by
    intro k
    rw [← List.getElem?_map, ← List.getElem?_map, hsp]
  have toEl : ∀ (k : Nat) d, (splitPath (pathStr g es))[k]? = some d → ∃ e, es[k]? = some e ∧ (sign true d).2 = e.dir.str := by
    intro k d hd
    have := hget k
    rw [hd] at this
    cases he : es[k]? with
    | none => rw [he] at this; cases this
    | some e => rw [he] at this; exact ⟨e, rfl, Option.some.inj this⟩
  have toD : ∀ (k : Nat) e, es[k]? = some e → ∃ d, (splitPath (pathStr g es))[k]? = some d ∧ (sign true d).2 = e.dir.str := by
    intro k e he
    have := hget k
    rw [he] at this
    cases hd : (splitPath (pathStr g es))[k]? with
    | none => rw [hd] at this; cases this
    | some d => rw [hd] at this; exact ⟨d, rfl, Option.some.inj this⟩
  have hou : openById fs real (pathStr g es) true id st = match idLoop fs real n (splitPath (pathStr g es)) st with
      | (some r, st) => .ok (some r, st)
      | (none, st) => .ok (none, if st.errno = ENOENT then { st with errno := 0 } else st) := by
    unfold openById
    rw [if_neg (by omega), hn]
    rfl
  rw [hou]
  rcases idLoop_spec fs real n (splitPath (pathStr g es)) st with ⟨pre, d, post, f, h1, h2, h3, h4, st', h5, h6⟩ | ⟨h1, st', h2, h3, h4⟩
  · left
    have hk : (splitPath (pathStr g es))[pre.length]? = some d := by rw [h1]; simp
    obtain ⟨e, he, hes⟩ := toEl _ _ hk
    have hem : e ∈ es := List.mem_of_getElem? he
    rw [hes] at h2 h3 h5
    obtain ⟨cs, hcs⟩ := (head_abs e (hp.1 e hem)).1 h2
    have hstr : e.dir.str = slashed cs := by rw [hcs]; rfl
    rw [hstr, hpl] at h3 h5
    refine ⟨_, f, st', ⟨es.take pre.length, e, es.drop (pre.length + 1), cs, ?_, hcs, rfl, h3, ?_⟩, by rw [h5], h6⟩
    · obtain ⟨hlt, hge⟩ := List.getElem?_eq_some_iff.1 he
      rw [← hge, ← List.drop_eq_getElem_cons hlt, List.take_append_drop]
    · intro e' he' cs' hcs'
      obtain ⟨k, hk'⟩ := List.mem_iff_getElem?.1 he'
      rw [List.getElem?_take] at hk'
      split at hk'
      · next hlt =>
        obtain ⟨d', hd', hds⟩ := toD k e' hk'
        have hpre : pre[k]? = some d' := by
          rw [h1, List.getElem?_append_left hlt] at hd'
          exact hd'
        have hm : e' ∈ es := List.mem_of_getElem? hk'
        have := h4 d' (List.mem_of_getElem? hpre) (by rw [hds]; exact (head_abs e' (hp.1 e' hm)).2 ⟨cs', hcs'⟩)
        rw [hds, hcs'] at this
        rw [← hpl]
        exact this
      · cases hk'
  · right
    refine ⟨?_, _, by rw [h2], ?_, ?_⟩
    · intro e he cs hcs
      obtain ⟨k, hk⟩ := List.mem_iff_getElem?.1 he
      obtain ⟨d, hd, hds⟩ := toD k e hk
      have := h1 d (List.mem_of_getElem? hd) (by rw [hds]; exact (head_abs e (hp.1 e he)).2 ⟨cs, hcs⟩)
      rw [hds, hcs] at this
      rw [← hpl]
      exact this
    · split
      · exact ⟨h3.opened, h3.bad, h3.elf⟩
      · exact h3
    · split
      · exact Or.inl rfl
      · next hne =>
        rcases h4 with h | ⟨d, hd, hh, hf⟩
        · exact Or.inr (Or.inl h)
        · obtain ⟨k, hk⟩ := List.mem_iff_getElem?.1 hd
          obtain ⟨e, he, hes⟩ := toEl _ _ hk
          have hem : e ∈ es := List.mem_of_getElem? he
          rw [hes] at hh hf
          obtain ⟨cs, hcs⟩ := (head_abs e (hp.1 e hem)).1 hh
          refine Or.inr (Or.inr ⟨hne, e, hem, cs, hcs, ?_⟩)
          rw [← hpl]
          rw [hcs] at hf
          exact hf

theorem idFirst_unique {fs : Fs} {es : List El} {id : List Byte} {q q' : Name} {f f' : File} (h : IdFirst fs es id q f) (h' : IdFirst fs es id q' f') : q = q' ∧ f = f' := by
  obtain ⟨pre, e, post, cs, h1, h2, h3, h4, h5⟩ := h
  obtain ⟨pre', e', post', cs', h1', h2', h3', h4', h5'⟩ := h'
  have key : ∀ (pre pre' post post' : List El),
      (∀ e' ∈ pre, ∀ cs', e'.dir = .abs cs' → ∃ n, fs (idPlace (slashed cs') id) = .error n) →
      (∀ e' ∈ pre', ∀ cs', e'.dir = .abs cs' → ∃ n, fs (idPlace (slashed cs') id) = .error n) → pre ++ e :: post = pre' ++ e' :: post' → e = e' := by
    intro pre
    induction pre with
    | nil =>
      intro pre' post post' _ hp' h
      cases pre' with
      | nil => rw [List.nil_append, List.nil_append, List.cons.injEq] at h; exact h.1
      | cons w pre' =>
        rw [List.nil_append, List.cons_append, List.cons.injEq] at h
        obtain ⟨n, hn⟩ := hp' e (by rw [h.1]; simp) cs h2
        rw [← h3, h4] at hn; cases hn
    | cons w pre ih =>
      intro pre' post post' hp hp' h
      cases pre' with
      | nil =>
        rw [List.nil_append, List.cons_append, List.cons.injEq] at h
        obtain ⟨n, hn⟩ := hp e' (by rw [h.1]; simp) cs' h2'
        rw [← h3', h4'] at hn; cases hn
      | cons w' pre' =>
        rw [List.cons_append, List.cons_append, List.cons.injEq] at h
        exact ih pre' post post' (fun a ha => hp a (by simp [ha])) (fun a ha => hp' a (by simp [ha])) h.2
  have he := key pre pre' post post' h5 h5' (h1.symm.trans h1')
  rw [he, h2'] at h2
  cases h2
  rw [h3, h3'] 
  refine ⟨rfl, ?_⟩
  rw [h3] at h4
  rw [h3', h4] at h4'
  cases h4'
  rfl

/-- **C92, partial: the search by ID.**  For every file system and path whose first element has no sign of its own behind a sign for all, and a module with a build ID (of 3 to 64 bytes) and no debug file
yet; with DWARF data, the ID is the one in the alternate link.  (1) If the first of the links below `.build-id` that can be opened leads to an ELF file with the ID, it is the result: the name is what the link
resolves to, the descriptor is open, or closed and -1 if the file was unpacked.  (2) If there are no such links, or the first is for another file, the outcome is the one of the search by name.  Missing: other
errors than ENOENT, see `C92_notdir_violation`; a value of `errno` from before, see `C92_errno_violation`. -/
theorem C92_by_id_partial (fs : Fs) (real : Name → Name) (m : Mod) (id : List Byte) (hw : WantedId m id) (h3 : 3 ≤ id.length) (h64 : id.length ≤ 64)
    (g : Option Bool) (es : List El) (hp : PathOk g es) (hg : g = none ∨ ∀ e l, es = e :: l → e.sign = none) (fn canon : Option (Dir × Name)) (hf : NameOk fn) (hc : NameOk canon)
    (link : Option Name) (crc : BitVec 32) (st : St) (hst : st.elf = none) (h0 : st.errno = 0) :
    (∀ q f packed, IdFirst fs es id q f → f.elf = some (packed, some id) →
      ∃ st', standardFind fs real (pathStr g es) m (nameStr fn) link crc (nameStr canon) st = .ok (some (if packed then none else some st.next, real q), st') ∧
        st'.elf = some f ∧ st'.opened = (if packed then st.opened else st.next :: st.opened) ∧ st'.badClose = st.badClose) ∧
    ((∀ e ∈ es, ∀ cs, e.dir = .abs cs → fs (idPlace (slashed cs) id) = .error ENOENT) ∨ (∃ q f packed i, IdFirst fs es id q f ∧ f.elf = some (packed, i) ∧ i ≠ some id) →
      ∃ r st', standardFind fs real (pathStr g es) m (nameStr fn) link crc (nameStr canon) st = .ok (r, st') ∧ NameSearch fs m g es fn canon link crc (r.map (·.2)) st'.errno) := by
  -- what `idFind` does after opening
  have hmid : ∃ i, m.id = some i := by
    rcases hw with ⟨n, _, h⟩ | ⟨_, h⟩
    · cases hi : m.id with | none => rw [hi] at h; cases h | some i => exact ⟨i, rfl⟩
    · exact ⟨id, h⟩
  obtain ⟨mid, hmid⟩ := hmid
  have hstz : ({ st with errno := 0 } : St) = st := by rw [← h0]
  have hopen := openById_spec fs real g es hp hg id h3 h64 st
  have hidf : ∀ r st1, openById fs real (pathStr g es) true id st = .ok (r, st1) →
      (r = none → idFind fs real (pathStr g es) m st = .ok (none, st1)) ∧
      (∀ fd f name packed i, r = some (fd, f, name) → f.elf = some (packed, i) → idFind fs real (pathStr g es) m st =
        (if i = some id then .ok (some (if packed then none else some fd, name), { (if packed then sysClose fd st1 else st1) with elf := some f })
        else .ok (none, { (if packed then (if packed then sysClose fd st1 else st1) else sysClose fd (if packed then sysClose fd st1 else st1)) with errno := 0 }))) := by
    intro r st1 ho
    constructor
    · rintro rfl
      rcases hw with ⟨n, hdw, _⟩ | ⟨hdw, hi⟩
      · simp only [idFind, hdw, ho, Res.bind_ok]
      · simp only [idFind, hdw, hi, hstz, ho, Res.bind_ok]
    · rintro fd f name packed i rfl he
      rcases hw with ⟨n, hdw, _⟩ | ⟨hdw, hi⟩
      · simp only [idFind, hdw, ho, Res.bind_ok, he]
      · simp only [idFind, hdw, hi, hstz, ho, Res.bind_ok, he]
  have hclose : ∀ fd st1, Took fd st st1 → Quiet st (sysClose fd st1) := by
    intro fd st1 ht
    unfold sysClose
    rw [if_pos (by rw [ht.opened]; simp)]
    exact ⟨by show st1.opened.erase fd = _; rw [ht.opened]; simp, ht.bad, ht.elf⟩
  have fall : ∀ st1, idFind fs real (pathStr g es) m st = .ok (none, st1) → st1.elf = none → st1.errno = 0 →
      ∃ r st', standardFind fs real (pathStr g es) m (nameStr fn) link crc (nameStr canon) st = .ok (r, st') ∧ NameSearch fs m g es fn canon link crc (r.map (·.2)) st'.errno := by
    intro st1 h1 h2 h4
    refine ⟨_, _, ?_, byName_spec fs m g es hp fn canon hf hc link crc st1⟩
    simp only [standardFind, hmid, h1, Res.bind_ok]
    rw [if_neg (by simp [h2, h4])]
  constructor
  · intro q f packed hq he
    rcases hopen with ⟨q', f', st1, h1, h2, h4⟩ | ⟨h1, _⟩
    · obtain ⟨rfl, rfl⟩ := idFirst_unique hq h1
      have hi := (hidf _ _ h2).2 _ _ _ _ _ rfl he
      rw [if_pos rfl] at hi
      refine ⟨{ (if packed then sysClose st.next st1 else st1) with elf := some f }, ?_, rfl, ?_, ?_⟩
      · simp only [standardFind, hmid, hi, Res.bind_ok]
        rw [if_pos (by simp)]
      · cases packed with
        | true => exact (hclose _ _ h4).opened
        | false => exact h4.opened
      · cases packed with
        | true => exact (hclose _ _ h4).bad
        | false => exact h4.bad
    · obtain ⟨pre, e, post, cs, g1, g2, g3, g4, g5⟩ := hq
      obtain ⟨n, hn⟩ := h1 e (by rw [g1]; simp) cs g2
      rw [← g3, g4] at hn
      cases hn
  · intro h
    rcases h with h | ⟨q, f, packed, i, hq, he, hi⟩
    · rcases hopen with ⟨q', f', st1, ⟨pre, e, post, cs, g1, g2, g3, g4, g5⟩, h2, h4⟩ | ⟨h1, st1, h2, h4, h5⟩
      · rw [g3, h e (by rw [g1]; simp) cs g2] at g4
        cases g4
      · refine fall st1 ((hidf _ _ h2).1 rfl) (h4.elf.trans hst) ?_
        rcases h5 with h5 | h5 | ⟨h5, e, he, cs, hcs, h6⟩
        · exact h5
        · exact h5.trans h0
        · rw [h e he cs hcs] at h6
          exact absurd (Except.error.inj h6).symm h5
    · rcases hopen with ⟨q', f', st1, h1, h2, h4⟩ | ⟨h1, _⟩
      · obtain ⟨rfl, rfl⟩ := idFirst_unique hq h1
        have hi' := (hidf _ _ h2).2 _ _ _ _ _ rfl he
        rw [if_neg hi] at hi'
        refine fall _ hi' ?_ rfl
        cases packed with
        | true => exact (hclose _ _ h4).elf.trans hst
        | false => exact (hclose _ _ h4).elf.trans hst
      · obtain ⟨pre, e, post, cs, g1, g2, g3, g4, g5⟩ := hq
        obtain ⟨n, hn⟩ := h1 e (by rw [g1]; simp) cs g2
        rw [← g3, g4] at hn
        cases hn

/-! ### Any path and any names -/

/-- What is known of a file that was accepted. -/
structure Right (fs : Fs) (real : Name → Name) (m : Mod) (name : Name) (f : File) (q : Name) (st' : St) : Prop where
  file : fs q = .ok f
  name : name = q ∨ name = real q
  alt : ∀ n id, m.dw = some (.link n id) → (∃ b, f.elf = some (b, some id)) ∧ st'.elf = some f
  id : ∀ id, m.dw = none → m.id = some id → (∃ b, f.elf = some (b, some id)) ∧ st'.elf = some f
  link : m.dw ≠ some .absent ∧ m.dw ≠ some .bad

theorem openCheck_elf (fd : Nat) (f : File) (id : List Byte) (st : St) (h : (openCheck fd f id st).1 = true) : (openCheck fd f id st).2.elf = some f := by
  unfold openCheck at h ⊢
  cases hf : f.elf with
  | none => rw [hf] at h; cases h
  | some q =>
    obtain ⟨b, i⟩ := q
    rw [hf] at h
    simp only at h ⊢
    by_cases hi : i = some id
    · rw [if_pos hi]
    · rw [if_neg hi] at h; cases h

theorem sign_plain (d : Bool) (p : Name) (h : '-' ∉ p) (hd : d = true) : (sign d p).1 = true ∧ '-' ∉ (sign d p).2 := by
  unfold sign
  split
  · exact ⟨rfl, fun h' => h (by simp [h'])⟩
  · exact absurd (by simp) h
  · exact ⟨hd, h⟩

theorem splitPath_mem (c : Char) : ∀ (p : Name), c ∉ p → ∀ e ∈ splitPath p, c ∉ e := by
  intro p
  induction p with
  | nil => intro _ e he; simp only [splitPath, List.mem_singleton] at he; rw [he]; simp
  | cons a p ih =>
    intro h e he
    have ih := ih (fun h' => h (by simp [h']))
    unfold splitPath at he
    split at he
    · rcases List.mem_cons.1 he with h' | h'
      · rw [h']; simp
      · exact ih e h'
    · split at he
      · rw [List.mem_singleton] at he
        rw [he]
        intro h'
        rw [List.mem_singleton] at h'
        exact h (by simp [h'])
      · next q l hq =>
        rw [hq] at ih
        rcases List.mem_cons.1 he with h' | h'
        · rw [h']
          intro hm
          rcases List.mem_cons.1 hm with h'' | h''
          · exact h (by simp [h''])
          · exact ih q (by simp) h''
        · exact ih e (by simp [h'])

theorem loop_any (x : Ctx) (fdir : Option Name) (def' can : Bool) (crc : BitVec 32) (real : Name → Name) : ∀ (l : List Name) (st : St) (fd : Nat) (name : Name) (st' : St),
    pathLoop x fdir def' can crc l st = (some (fd, name), st') →
    ∃ f, Right x.fs real x.m name f name st' ∧ f.ino ≠ x.m.main ∧
      (x.m.dw = none → x.m.id = none → def' = true → can = true → (∀ e ∈ l, '-' ∉ e) → ∃ d, f.content = some d ∧ Hash.crcSpec d = crc) := by
  intro l
  induction l with
  | nil => intro st fd name st' h; cases (Prod.mk.inj h).1
  | cons e l ih =>
    intro st fd name st' h
    unfold pathLoop at h
    have hel := element_any x fdir (sign def' e).2 st
    generalize element x fdir (sign def' e).2 st = r at h hel
    obtain ⟨r, st1⟩ := r
    have rec' : ∀ st2, pathLoop x fdir def' can crc l st2 = (some (fd, name), st') → ∃ f, Right x.fs real x.m name f name st' ∧ f.ino ≠ x.m.main ∧
      (x.m.dw = none → x.m.id = none → def' = true → can = true → (∀ e' ∈ e :: l, '-' ∉ e') → ∃ d, f.content = some d ∧ Hash.crcSpec d = crc) := by
      intro st2 h2
      obtain ⟨f, h3, h4, h5⟩ := ih st2 fd name st' h2
      exact ⟨f, h3, h4, fun a b c d e' => h5 a b c d (fun e'' he => e' e'' (by simp [he]))⟩
    cases r with
    | next => exact rec' st1 h
    | fail => cases (Prod.mk.inj h).1
    | file fd' f name' =>
      simp only at h
      have hv := validate_true x.m fd' f ((sign def' e).1 && can) crc st1
      have hve : ∀ n id, (x.m.dw = some (.link n id) ∨ (x.m.dw = none ∧ x.m.id = some id)) → (validate x.m fd' f ((sign def' e).1 && can) crc st1).1 = true →
          (validate x.m fd' f ((sign def' e).1 && can) crc st1).2.elf = some f := by
        intro n id hh ht
        rcases hh with hh | ⟨hh, hh'⟩
        · simp only [validate, hh] at ht ⊢
          exact openCheck_elf _ _ _ _ ht
        · simp only [validate, hh, hh'] at ht ⊢
          exact openCheck_elf _ _ _ _ ht
      generalize validate x.m fd' f ((sign def' e).1 && can) crc st1 = v at h hv hve
      obtain ⟨v, st2⟩ := v
      cases v with
      | false => exact rec' _ h
      | true =>
        have hfit := hv.1 rfl
        obtain ⟨h1, h2⟩ := Prod.mk.inj h
        obtain ⟨rfl, rfl⟩ := Prod.mk.inj (Option.some.inj h1)
        subst h2
        refine ⟨f, ⟨hel.1, Or.inl rfl, ?_, ?_, ?_⟩, hel.2.1, ?_⟩
        · intro n id hdw
          refine ⟨?_, hve n id (Or.inl hdw) rfl⟩
          simpa [Fits, hdw] using hfit
        · intro id hdw hid
          refine ⟨?_, hve [] id (Or.inr ⟨hdw, hid⟩) rfl⟩
          simpa [Fits, hdw, hid] using hfit
        · constructor
          · intro hdw; simp [Fits, hdw] at hfit
          · intro hdw; simp [Fits, hdw] at hfit
        · intro hdw hid hd hc hm
          simp only [Fits, hdw, hid] at hfit
          apply hfit
          rw [(sign_plain def' e (hm e (by simp)) hd).1, hc]
          rfl

theorem find_any (fs : Fs) (real : Name → Name) (m : Mod) (path : Name) (fileName link : Option Name) (crc : BitVec 32) (st : St) (fd : Nat) (name : Name) (st' : St)
    (h : findInPath fs m path fileName link crc st = (some (fd, name), st')) :
    ∃ f, Right fs real m name f name st' ∧ f.ino ≠ m.main ∧
      (m.dw = none → m.id = none → '-' ∉ path → link.isSome → crc ≠ 0#32 → ∃ d, f.content = some d ∧ Hash.crcSpec d = crc) := by
  unfold findInPath at h
  simp only at h
  cases link with
  | some file =>
    simp only at h
    obtain ⟨f, h1, h2, h3⟩ := loop_any ⟨fs, m, file, none⟩ _ _ _ crc real _ _ _ _ _ h
    refine ⟨f, h1, h2, ?_⟩
    intro a b hp _ hc
    obtain ⟨s1, s2⟩ := sign_plain true path hp rfl
    exact h3 a b s1 (by simpa using hc) (splitPath_mem '-' _ s2)
  | none =>
    simp only at h
    cases hb : fileName.map basename with
    | none => rw [hb] at h; cases (Prod.mk.inj h).1
    | some b =>
      rw [hb] at h
      simp only at h
      split at h
      · cases (Prod.mk.inj h).1
      · obtain ⟨f, h1, h2, h3⟩ := loop_any ⟨fs, m, b ++ ".debug".toList, some b⟩ _ _ _ crc real _ _ _ _ _ h
        exact ⟨f, h1, h2, fun _ _ _ hl => by cases hl⟩

theorem byName_any (fs : Fs) (real : Name → Name) (m : Mod) (path : Name) (fileName link canon : Option Name) (crc : BitVec 32) (st : St) (fdo : Option Nat) (name : Name) (st' : St)
    (h : byName fs path m fileName link crc canon st = (some (fdo, name), st')) :
    ∃ f, Right fs real m name f name st' ∧ f.ino ≠ m.main ∧
      (m.dw = none → m.id = none → '-' ∉ path → link.isSome → crc ≠ 0#32 → ∃ d, f.content = some d ∧ Hash.crcSpec d = crc) := by
  unfold byName at h
  cases hr : findInPath fs m path fileName link crc st with
  | mk r st1 =>
    rw [hr] at h
    cases r with
    | some r =>
      obtain ⟨fd, n⟩ := r
      obtain ⟨h1, h2⟩ := Prod.mk.inj h
      obtain ⟨_, rfl⟩ := Prod.mk.inj (Option.some.inj h1)
      subst h2
      exact find_any fs real m path fileName link crc st _ _ _ hr
    | none =>
      simp only at h
      cases fileName with
      | none => cases (Prod.mk.inj h).1
      | some fnm =>
       cases canon with
       | none => cases (Prod.mk.inj h).1
       | some c =>
        simp only at h
        split at h
        · cases hr2 : findInPath fs m path (some c) link crc st1 with
          | mk r2 st2 =>
            rw [hr2] at h
            cases r2 with
            | some r2 =>
              obtain ⟨fd, n⟩ := r2
              obtain ⟨h1, h2⟩ := Prod.mk.inj h
              obtain ⟨_, rfl⟩ := Prod.mk.inj (Option.some.inj h1)
              subst h2
              exact find_any fs real m path _ link crc st1 _ _ _ hr2
            | none => cases (Prod.mk.inj h).1
        · cases (Prod.mk.inj h).1

theorem openById_any (fs : Fs) (real : Name → Name) (path : Name) (id : List Byte) (st : St) :
    ∃ r st', openById fs real path true id st = .ok (r, st') ∧ (∀ fd f name, r = some (fd, f, name) → ∃ q, fs q = .ok f ∧ name = real q) := by
  unfold openById
  by_cases h : id.length < 3 ∨ id.length > 64
  · rw [if_pos h]; exact ⟨none, st, rfl, by simp⟩
  · rw [if_neg h]
    obtain ⟨n, hn, _⟩ := idName_eq id (by omega) (by omega)
    rw [hn]
    simp only
    rcases idLoop_spec fs real n (splitPath path) st with ⟨pre, d, post, f, h1, h2, h3, h4, st', h5, h6⟩ | ⟨h1, st', h2, h3, h4⟩
    · rw [h5]
      refine ⟨_, _, rfl, ?_⟩
      rintro fd f' name h
      obtain ⟨_, h⟩ := Prod.mk.inj (Option.some.inj h)
      obtain ⟨rfl, rfl⟩ := Prod.mk.inj h
      exact ⟨_, h3, rfl⟩
    · rw [h2]
      exact ⟨none, _, rfl, by simp⟩

theorem idFind_any (fs : Fs) (real : Name → Name) (path : Name) (m : Mod) (st : St) :
    ∃ r st', idFind fs real path m st = .ok (r, st') ∧ (∀ fdo name, r = some (fdo, name) → ∃ q f, Right fs real m name f q st' ∧ (m.dw = none → m.id ≠ none)) := by
  unfold idFind
  split
  · next n id hdw =>
    obtain ⟨r, st1, h1, h2⟩ := openById_any fs real path id st
    rw [h1]
    simp only [Res.bind_ok]
    cases r with
    | none => exact ⟨none, st1, rfl, by simp⟩
    | some r =>
      obtain ⟨fd, f, name⟩ := r
      simp only
      obtain ⟨q, h3, h4⟩ := h2 fd f name rfl
      cases he : f.elf with
      | none => exact ⟨none, _, rfl, by simp⟩
      | some p =>
        obtain ⟨packed, i⟩ := p
        simp only
        by_cases hi : i = some id
        · rw [if_pos hi]
          refine ⟨_, _, rfl, ?_⟩
          intro fdo nm hh
          obtain ⟨_, rfl⟩ := Prod.mk.inj (Option.some.inj hh)
          refine ⟨q, f, ⟨h3, Or.inr h4, ?_, ?_, ?_⟩, by rw [hdw]; simp⟩
          · intro n' id' hd'
            rw [hdw] at hd'
            obtain ⟨_, rfl⟩ := Alt.link.inj (Option.some.inj hd')
            exact ⟨⟨packed, by rw [he, hi]⟩, rfl⟩
          · intro id' hd'; rw [hdw] at hd'; cases hd'
          · rw [hdw]; exact ⟨by simp, by simp⟩
        · rw [if_neg hi]; exact ⟨none, _, rfl, by simp⟩
  · exact ⟨none, st, rfl, by simp⟩
  · next hdw =>
    cases hid : m.id with
    | none => exact ⟨none, st, rfl, by simp⟩
    | some id =>
      simp only
      obtain ⟨r, st1, h1, h2⟩ := openById_any fs real path id { st with errno := 0 }
      rw [h1]
      simp only [Res.bind_ok]
      cases r with
      | none => exact ⟨none, st1, rfl, by simp⟩
      | some r =>
        obtain ⟨fd, f, name⟩ := r
        simp only
        obtain ⟨q, h3, h4⟩ := h2 fd f name rfl
        cases he : f.elf with
        | none => exact ⟨none, _, rfl, by simp⟩
        | some p =>
          obtain ⟨packed, i⟩ := p
          simp only
          by_cases hi : i = some id
          · rw [if_pos hi]
            refine ⟨_, _, rfl, ?_⟩
            intro fdo nm hh
            obtain ⟨_, rfl⟩ := Prod.mk.inj (Option.some.inj hh)
            refine ⟨q, f, ⟨h3, Or.inr h4, ?_, ?_, ?_⟩, by simp⟩
            · intro n' id' hd'; rw [hdw] at hd'; cases hd'
            · intro id' _ hid'
              rw [hid] at hid'
              rw [← Option.some.inj hid']
              exact ⟨⟨packed, by rw [he, hi]⟩, rfl⟩
            · rw [hdw]; exact ⟨by simp, by simp⟩
          · rw [if_neg hi]; exact ⟨none, _, rfl, by simp⟩

/-- **C92, only files that belong to the module are used.**  For every file system, any path and names at all, every module and state: the search ends without overrunning the buffer for the name of the
link, and a file it returns is there under the name (or the name resolved) and has the build ID of the alternate link, or of the module; its descriptor is the one put into the module.  For a module without
build ID, the file is not the file itself, and its contents have the CRC of the link, provided that there is a link with a CRC and no minus sign in the path. -/
theorem C92_right (fs : Fs) (real : Name → Name) (path : Name) (m : Mod) (fileName link : Option Name) (crc : BitVec 32) (canon : Option Name) (st : St) :
    ∃ r st', standardFind fs real path m fileName link crc canon st = .ok (r, st') ∧
      ∀ fdo name, r = some (fdo, name) → ∃ q f, fs q = .ok f ∧ (name = q ∨ name = real q) ∧
        (∀ n id, m.dw = some (.link n id) → (∃ b, f.elf = some (b, some id)) ∧ st'.elf = some f) ∧
        (∀ id, m.dw = none → m.id = some id → (∃ b, f.elf = some (b, some id)) ∧ st'.elf = some f) ∧
        m.dw ≠ some .absent ∧ m.dw ≠ some .bad ∧
        (m.dw = none → m.id = none → name = q ∧ f.ino ≠ m.main ∧ ('-' ∉ path → link.isSome → crc ≠ 0#32 → ∃ d, f.content = some d ∧ Hash.crcSpec d = crc)) := by
  have byn : ∀ st0, ∃ r st', Res.ok (byName fs path m fileName link crc canon st0) = .ok (r, st') ∧
      ∀ fdo name, r = some (fdo, name) → ∃ q f, fs q = .ok f ∧ (name = q ∨ name = real q) ∧
        (∀ n id, m.dw = some (.link n id) → (∃ b, f.elf = some (b, some id)) ∧ st'.elf = some f) ∧
        (∀ id, m.dw = none → m.id = some id → (∃ b, f.elf = some (b, some id)) ∧ st'.elf = some f) ∧
        m.dw ≠ some .absent ∧ m.dw ≠ some .bad ∧
        (m.dw = none → m.id = none → name = q ∧ f.ino ≠ m.main ∧ ('-' ∉ path → link.isSome → crc ≠ 0#32 → ∃ d, f.content = some d ∧ Hash.crcSpec d = crc)) := by
    intro st0
    refine ⟨_, _, rfl, ?_⟩
    intro fdo name h
    obtain ⟨f, h1, h2, h3⟩ := byName_any fs real m path fileName link canon crc st0 fdo name _ (Prod.ext h rfl)
    exact ⟨name, f, h1.file, h1.name, h1.alt, h1.id, h1.link.1, h1.link.2, fun a b => ⟨rfl, h2, h3 a b⟩⟩
  obtain hid | ⟨i, hid⟩ : m.id = none ∨ ∃ i, m.id = some i := by cases m.id with | none => exact Or.inl rfl | some i => exact Or.inr ⟨i, rfl⟩
  · have key : standardFind fs real path m fileName link crc canon st = .ok (byName fs path m fileName link crc canon st) := by unfold standardFind; rw [hid]
    rw [key]
    exact byn st
  · obtain ⟨r, st1, h1, h2⟩ := idFind_any fs real path m st
    have key : standardFind fs real path m fileName link crc canon st = if r.isSome ∨ st1.elf.isSome ∨ st1.errno ≠ 0 then .ok (r, st1) else .ok (byName fs path m fileName link crc canon st1) := by
      unfold standardFind
      rw [hid]
      simp only [h1, Res.bind_ok]
    rw [key]
    split
    · refine ⟨r, st1, rfl, ?_⟩
      intro fdo name hr
      obtain ⟨q, f, h3, h4⟩ := h2 fdo name hr
      exact ⟨q, f, h3.file, h3.name, h3.alt, h3.id, h3.link.1, h3.link.2, fun a b => absurd b (h4 a)⟩
    · exact byn st1

/-! ### Descriptors -/

/-- Descriptors after a search. -/
def Fds (st : St) (r : Option (Nat × Name)) (st' : St) : Prop :=
  st'.badClose = st.badClose ∧ st'.elf = st.elf ∧ st'.opened = (match r with | none => st.opened | some (fd, _) => fd :: st.opened)

theorem loop_fds (x : Ctx) (hdw : x.m.dw = none) (hid : x.m.id = none) (fdir : Option Name) (def' can : Bool) (crc : BitVec 32) : ∀ (l : List Name) (st : St),
    Fds st (pathLoop x fdir def' can crc l st).1 (pathLoop x fdir def' can crc l st).2 := by
  intro l
  induction l with
  | nil => intro st; exact ⟨rfl, rfl, rfl⟩
  | cons e l ih =>
    intro st
    unfold pathLoop
    have hel := element_any x fdir (sign def' e).2 st
    generalize element x fdir (sign def' e).2 st = r at hel ⊢
    obtain ⟨r, st1⟩ := r
    have hq : ∀ st2, Quiet st st2 → Fds st (pathLoop x fdir def' can crc l st2).1 (pathLoop x fdir def' can crc l st2).2 := by
      intro st2 h
      obtain ⟨h1, h2, h3⟩ := ih st2
      refine ⟨h1.trans h.bad, h2.trans h.elf, ?_⟩
      rw [h3, h.opened]
    cases r with
    | next => exact hq st1 hel
    | fail => exact ⟨hel.bad, hel.elf, hel.opened⟩
    | file fd f name =>
      simp only
      have hv : validate x.m fd f ((sign def' e).1 && can) crc st1 = (!((sign def' e).1 && can) || checkCrc f crc, st1) := by
        unfold validate; rw [hdw, hid]
      rw [hv]
      obtain ⟨_, _, ht⟩ := hel
      cases (!((sign def' e).1 && can) || checkCrc f crc) with
      | true => exact ⟨ht.bad, ht.elf, ht.opened⟩
      | false =>
        apply hq
        unfold sysClose
        rw [if_pos (by rw [ht.opened]; simp)]
        exact ⟨by show st1.opened.erase fd = _; rw [ht.opened]; simp, ht.bad, ht.elf⟩

theorem find_fds (fs : Fs) (m : Mod) (hdw : m.dw = none) (hid : m.id = none) (path : Name) (fileName link : Option Name) (crc : BitVec 32) (st : St) :
    Fds st (findInPath fs m path fileName link crc st).1 (findInPath fs m path fileName link crc st).2 := by
  unfold findInPath
  cases link with
  | some file => exact loop_fds ⟨fs, m, file, none⟩ hdw hid _ _ _ _ _ _
  | none =>
    simp only
    cases fileName.map basename with
    | none => exact ⟨rfl, rfl, rfl⟩
    | some b =>
      simp only [hdw, Option.isSome_none, Bool.false_eq_true, if_false]
      exact loop_fds ⟨fs, m, b ++ ".debug".toList, some b⟩ hdw hid _ _ _ _ _ _

/-- **C92, partial: descriptors.**  For a module without build ID and without DWARF data, any path and names: every descriptor is closed but the one returned, which is open, and no descriptor that is not open
is closed.  With a build ID that does not hold, see `C92_twice_violation` and `C92_closed_violation`. -/
theorem C92_descriptors_partial (fs : Fs) (real : Name → Name) (path : Name) (m : Mod) (hdw : m.dw = none) (hid : m.id = none) (fileName link : Option Name) (crc : BitVec 32)
    (canon : Option Name) (st : St) (r : Found) (st' : St) (h : standardFind fs real path m fileName link crc canon st = .ok (r, st')) :
    st'.badClose = st.badClose ∧
    (r = none → st'.opened = st.opened) ∧
    (∀ fdo name, r = some (fdo, name) → ∃ fd, fdo = some fd ∧ st'.opened = fd :: st.opened) := by
  unfold standardFind at h
  rw [hid] at h
  have h := Res.ok.inj h
  unfold byName at h
  have h1 := find_fds fs m hdw hid path fileName link crc st
  generalize findInPath fs m path fileName link crc st = v at h h1
  obtain ⟨v, st1⟩ := v
  cases v with
  | some v =>
    obtain ⟨fd, n⟩ := v
    obtain ⟨rfl, rfl⟩ := Prod.mk.inj h
    refine ⟨h1.1, by simp, ?_⟩
    intro fdo name hh
    obtain ⟨rfl, _⟩ := Prod.mk.inj (Option.some.inj hh)
    exact ⟨fd, rfl, h1.2.2⟩
  | none =>
    have stop : ((none, st1) : Found × St) = (r, st') → st'.badClose = st.badClose ∧ (r = none → st'.opened = st.opened) ∧
        (∀ fdo name, r = some (fdo, name) → ∃ fd, fdo = some fd ∧ st'.opened = fd :: st.opened) := by
      intro h
      obtain ⟨rfl, rfl⟩ := Prod.mk.inj h
      exact ⟨h1.1, fun _ => h1.2.2, by simp⟩
    simp only at h
    cases fileName with
    | none => exact stop h
    | some fnm =>
     cases canon with
     | none => exact stop h
     | some c =>
      simp only at h
      split at h
      · have h2 := find_fds fs m hdw hid path (some c) link crc st1
        generalize findInPath fs m path (some c) link crc st1 = w at h h2
        obtain ⟨w, st2⟩ := w
        cases w with
        | some w =>
          obtain ⟨fd, n⟩ := w
          obtain ⟨rfl, rfl⟩ := Prod.mk.inj h
          refine ⟨h2.1.trans h1.1, by simp, ?_⟩
          intro fdo name hh
          obtain ⟨rfl, _⟩ := Prod.mk.inj (Option.some.inj hh)
          exact ⟨fd, rfl, by rw [h2.2.2]; simp only; rw [h1.2.2]⟩
        | none =>
          obtain ⟨rfl, rfl⟩ := Prod.mk.inj h
          exact ⟨h2.1.trans h1.1, fun _ => h2.2.2.trans h1.2.2, by simp⟩
      · exact stop h

/-! ### Violations -/

/-- A file system with a few files. -/
def files (l : List (String × File)) : Fs := fun n => match l.find? (fun p => p.1.toList == n) with | some p => .ok p.2 | none => .error ENOENT

/-- The state before: nothing is open. -/
def fresh : St := ⟨0, 3, [], false, none⟩

/-- A module with a build ID, in the file with inode 7. -/
def mod1 : Mod := ⟨none, some [0xab, 0xcd, 0xef], (1, 7)⟩

/-- The right debug file, a wrong one, and the right one in packed form. -/
def good : File := ⟨(1, 8), some [1], some (false, some [0xab, 0xcd, 0xef])⟩
def wrong : File := ⟨(1, 9), some [2], some (false, some [1, 2, 3])⟩
def gz : File := ⟨(1, 10), some [3], some (true, some [0xab, 0xcd, 0xef])⟩

/-- The result of a search for the file `fn` with the link `x.debug`. -/
def run (fs : Fs) (m : Mod) (path fn : String) (st : St := fresh) : Option (Option (Option Nat × String) × Nat × List Nat × Bool) :=
  match standardFind fs _root_.id path.toList m (some fn.toList) (some "x.debug".toList) 5#32 none st with
  | .ok (r, st') => some (r.map fun p => (p.1, String.ofList p.2), st'.errno, st'.opened, st'.badClose)
  | _ => none

/-- By ID, below the second element; by name, in the third one after a wrong file in the second. -/
example : run (files [("/d/.build-id/ab/cdef.debug", good)]) mod1 "+:-/c:/d" "/usr/bin/x" = some (some (some 3, "/d/.build-id/ab/cdef.debug"), 2, [3], false) ∧
    run (files [("/d/bin/x.debug", good)]) mod1 ":.debug:/d" "/usr/bin/x" = some (some (some 3, "/d/bin/x.debug"), 2, [3], false) :=
  ⟨by decide +kernel, by decide +kernel⟩

/-- The default path is one of those the theorems are about, and so is a path with signs; the names that are tried. -/
example : PathOk none [⟨none, .here⟩, ⟨none, .rel [".debug".toList]⟩, ⟨none, .abs ["usr".toList, "lib".toList, "debug".toList]⟩] ∧
    pathStr none [⟨none, .here⟩, ⟨none, .rel [".debug".toList]⟩, ⟨none, .abs ["usr".toList, "lib".toList, "debug".toList]⟩] = ":.debug:/usr/lib/debug".toList ∧
    PathOk (some true) [⟨some false, .abs ["d".toList]⟩] ∧ pathStr (some true) [⟨some false, .abs ["d".toList]⟩] = "+-/d".toList ∧
    tried mod1 (some (.abs ["usr".toList, "bin".toList], "x".toList)) (some "x.debug".toList) (.abs ["d".toList]) = ["/d/usr/bin/x.debug".toList, "/d/bin/x.debug".toList, "/d/x.debug".toList] ∧
    tried mod1 (some (.abs ["bin".toList], "x".toList)) none (.rel [".debug".toList]) = ["/bin/.debug/x.debug".toList, "/bin/.debug/x".toList, "/bin/x.debug".toList, "/bin/x".toList] := by
  have ok1 : El.Ok ⟨none, .here⟩ := ⟨trivial, by simp [Dir.str], (by intro _ c l h; cases h), by simp⟩
  have ok2 : El.Ok ⟨none, .rel [".debug".toList]⟩ := by
    refine ⟨⟨by simp, by decide⟩, by decide, ?_, by simp⟩
    intro _ c l h
    have h1 : (Dir.rel [".debug".toList]).str = '.' :: "debug".toList := by decide
    rw [h1] at h
    rw [← (List.cons.inj h).1]
    decide
  have ok3 : El.Ok ⟨none, .abs ["usr".toList, "lib".toList, "debug".toList]⟩ := by
    refine ⟨by show ∀ c ∈ _, _; decide, by decide, ?_, by simp⟩
    intro _ c l h
    rw [Dir.str, slashed_cons] at h
    rw [← (List.cons.inj h).1]
    decide
  have ok4 : El.Ok ⟨some false, .abs ["d".toList]⟩ := ⟨by show ∀ c ∈ _, _; decide, by decide, (by intro h; cases h), by simp⟩
  refine ⟨⟨?_, by simp, ?_⟩, by decide, ⟨?_, by simp, by intro h; cases h⟩, by decide, by decide +kernel, by decide +kernel⟩
  · intro e he
    simp only [List.mem_cons, List.not_mem_nil, or_false] at he
    rcases he with rfl | rfl | rfl
    · exact ok1
    · exact ok2
    · exact ok3
  · intro _ e l h
    rw [← (List.cons.inj h).1]
  · intro e he
    rw [List.mem_singleton] at he
    rw [he]; exact ok4

/-- **C92, violation: a descriptor is closed twice.**  If the file found by name has another build ID, its descriptor is closed when the IDs are compared and again by the search: in a program with other
threads the second `close` may hit a file that was opened in between.  (A file that is not ELF is closed once.) -/
theorem C92_twice_violation (fs : Fs) (m : Mod) (id : List Byte) (hdw : m.dw = none) (hid : m.id = some id) (base : Name) (link : Name) (f : File) (i : Option (List Byte))
    (hb : '/' ∉ base) (h1 : fs link = .ok f) (h2 : f.ino ≠ m.main) (h3 : f.elf = some (false, i)) (h4 : i ≠ some id) (crc : BitVec 32) (st : St) (hn : st.next ∉ st.opened) :
    (findInPath fs m [] (some base) (some link) crc st).1 = none ∧ (findInPath fs m [] (some base) (some link) crc st).2.badClose = true := by
  have hd : dirname base = none := (dirname_inDir .here base hb).1
  simp only [findInPath, Option.bind_some, hd, sign, splitPath, pathLoop, element, hdw, Option.isSome_none, Bool.false_eq_true, if_false, attempt, joinName, tryOpen, sysOpen, h1,
    if_neg h2, validate, hid, openCheck, h3, if_neg h4, sysClose, List.mem_cons, true_or, if_true, List.erase_cons_head, if_neg hn, and_self]

/-- **C92, violation: the descriptor returned is closed.**  If the file found by name is packed, it is unpacked and its descriptor closed when the IDs are compared; the number of the closed descriptor is
returned all the same. -/
theorem C92_closed_violation : run (files [("x.debug", gz)]) mod1 "" "x" = some (some (some 3, "x.debug"), 0, [], false) := by decide +kernel

/-- **C92, violation: a sign for all and a sign of the first element.**  The search by name understands a plus and a minus in front of the first directory, the search by ID does not: it takes the second sign for a part of the name
of the directory, which is not absolute then, and skips it. -/
theorem C92_sign_violation : (run (files [("/d/.build-id/ab/cdef.debug", good)]) mod1 "+-/d" "x").map (·.1) = some none ∧
    ((run (files [("/d/.build-id/ab/cdef.debug", good)]) mod1 "+/d" "x").map (·.1)).isSome ∧ (run (files [("/d/.build-id/ab/cdef.debug", good)]) mod1 "+/d" "x").map (·.1) ≠ some none := by decide +kernel

/-- **C92, violation: `errno` from before.**  The search for an alternate file by ID does not clear `errno`; with a path that has no absolute element a value from an earlier call is taken for an error of the
search, and the file is not looked for by name. -/
theorem C92_errno_violation :
    (run (files [("x.debug", good)]) ⟨some (.link [] [0xab, 0xcd, 0xef]), some [9, 9, 9], (1, 7)⟩ "" "x" { fresh with errno := 5 }).map (·.1) = some none ∧
    (run (files [("x.debug", good)]) ⟨some (.link [] [0xab, 0xcd, 0xef]), some [9, 9, 9], (1, 7)⟩ "" "x").map (·.1) = some (some (some 3, "x.debug")) := by decide +kernel

/-- **C92, violation: a wrong file hides the right one.**  Of the places of one element only the first file is looked at; when it does not belong to the module, the other places of that element, documented
as equal alternatives, are not tried. -/
theorem C92_hidden_violation : (run (files [("/d/usr/bin/x.debug", wrong), ("/d/bin/x.debug", good)]) mod1 "/d" "/usr/bin/x").map (·.1) = some none := by decide +kernel

/-- **C92, violation: an alternate file of a module without build ID.**  The alternate link has an ID, but the file is looked for by ID only if the module has an ID too. -/
theorem C92_noid_violation :
    (run (files [("/d/.build-id/ab/cdef.debug", good)]) ⟨some (.link [] [0xab, 0xcd, 0xef]), none, (1, 7)⟩ "/d" "/bin/x").map (·.1) = some none ∧
    (run (files [("/d/.build-id/ab/cdef.debug", good)]) ⟨some (.link [] [0xab, 0xcd, 0xef]), some [1], (1, 7)⟩ "/d" "/bin/x").map (·.1) = some (some (some 3, "/d/.build-id/ab/cdef.debug")) := by decide +kernel

/-- **C92, violation: an element that is not a directory.**  The search by name passes over `ENOTDIR`; the search by ID reports it, and the search by name does not take place. -/
theorem C92_notdir_violation :
    (run (fun n => if n = "/d/.build-id/ab/cdef.debug".toList then .error ENOTDIR else files [("x.debug", good)] n) mod1 ":/d" "x").map (fun r => (r.1, r.2.1)) = some (none, ENOTDIR) := by decide +kernel

/-- **C92, violation: a file in the root directory.**  Its directory is absolute, but below absolute elements its debug file is not looked for. -/
theorem C92_root_violation : (run (files [("/d/x.debug", good)]) mod1 "/d" "/x").map (·.1) = some none ∧
    (run (files [("/d/x.debug", good)]) mod1 "/d" "/bin/x").map (·.1) = some (some (some 3, "/d/x.debug")) := by decide +kernel

end Verif.Debuglink
