import Verif.Arlib.Model
import Verif.Arlib.Spec
import Verif.Ar.Long
import Verif.Ar.Syms
/-!
# Lemmas for C70
-/
namespace Verif.Arlib
open Verif Verif.Ar Verif.Open
open Verif.Arlib.Spec (wanted allSyms unindexed indexRoom)

/-! ### Numbers as text -/

theorem digit_of {k : Nat} (h : k < 10) : Ar.Spec.Digit (BitVec.ofNat 8 (48 + k)) ∧ (BitVec.ofNat 8 (48 + k)).toNat - 48 = k := by
  have : (BitVec.ofNat 8 (48 + k)).toNat = 48 + k := by simp; omega
  unfold Ar.Spec.Digit
  rw [this]
  omega

theorem decF_spec (fuel : Nat) : ∀ n, n < fuel → Ar.Spec.decVal (decF fuel n) = n ∧ (∀ b ∈ decF fuel n, Ar.Spec.Digit b) ∧
    decF fuel n ≠ [] := by
  induction fuel with
  | zero => intro n h; omega
  | succ fuel ih =>
    intro n h
    simp only [decF]
    split
    · rename_i h10
      have := digit_of h10
      refine ⟨?_, ?_, by simp⟩
      · simp only [Ar.Spec.decVal, List.foldl_cons, List.foldl_nil, this.2]; omega
      · intro b hb; simp only [List.mem_singleton] at hb; subst hb; exact this.1
    · rename_i h10
      obtain ⟨e1, e2, e3⟩ := ih (n / 10) (by omega)
      have := @digit_of (n % 10) (by omega)
      refine ⟨?_, ?_, by simp⟩
      · unfold Ar.Spec.decVal at e1 ⊢
        rw [List.foldl_append, e1]
        simp only [List.foldl_cons, List.foldl_nil, this.2]
        omega
      · intro b hb
        rcases List.mem_append.mp hb with hb | hb
        · exact e2 b hb
        · simp only [List.mem_singleton] at hb; subst hb; exact this.1

theorem decF_length (fuel : Nat) : ∀ n k, n < 10 ^ (k + 1) → (decF fuel n).length ≤ k + 1 := by
  induction fuel with
  | zero => intro n k _; simp [decF]
  | succ fuel ih =>
    intro n k h
    simp only [decF]
    split
    · simp
    · rename_i h10
      cases k with
      | zero => simp at h; omega
      | succ k =>
        have := ih (n / 10) k (by rw [Nat.div_lt_iff_lt_mul (by decide)]; rw [Nat.pow_succ] at h; exact h)
        simp only [List.length_append, List.length_singleton]
        omega

theorem dec_val (n : Nat) : Ar.Spec.decVal (dec n) = n := (decF_spec (n + 1) n (by omega)).1
theorem dec_digits (n : Nat) : ∀ b ∈ dec n, Ar.Spec.Digit b := (decF_spec (n + 1) n (by omega)).2.1
theorem dec_ne (n : Nat) : dec n ≠ [] := (decF_spec (n + 1) n (by omega)).2.2
theorem dec_length {n k : Nat} (h : n < 10 ^ (k + 1)) : (dec n).length ≤ k + 1 := decF_length _ n k h

theorem padR_length {w : Nat} {t : List Byte} (h : t.length ≤ w) : (padR w t).length = w := by
  unfold padR; simp; omega

/-! ### The symbol table -/

/-- Several `arlib_add_symref`. -/
def Tab.addAll (t : Tab) (refs : List Sym) : Tab := refs.foldl (fun t s => t.addSymref s.name s.off) t

theorem addAll_append (t : Tab) (a b : List Sym) : t.addAll (a ++ b) = (t.addAll a).addAll b := by
  unfold Tab.addAll; rw [List.foldl_append]

theorem addSymbols_eq {t : Tab} {names : List (List Byte)} {off : Nat} (h : off < 2 ^ 32) :
    t.addSymbols names off = .ok (t.addAll (names.map fun s => ⟨s, off⟩)) := by
  unfold Tab.addSymbols Tab.addAll
  rw [if_neg (by omega)]
  have : ∀ (l : List (List Byte)) (t : Tab), l.foldl (fun t n => t.addSymref n off) t =
      (l.map fun s => (⟨s, off⟩ : Sym)).foldl (fun t s => t.addSymref s.name s.off) t := by
    intro l
    induction l with
    | nil => intro t; rfl
    | cons a l ih => intro t; simp only [List.foldl_cons, List.map_cons]; exact ih _
  rw [this]; rfl

theorem addAll_eq (refs : List Sym) : ∀ t : Tab, t.addAll refs = ⟨t.offs ++ refs.map (fun s => s.off % 2 ^ 32),
    t.names ++ (refs.map Sym.stored).flatten, t.longs⟩ := by
  induction refs with
  | nil => intro t; simp [Tab.addAll]
  | cons s refs ih =>
    intro t
    have : t.addAll (s :: refs) = (t.addSymref s.name s.off).addAll refs := rfl
    rw [this, ih]
    simp [Tab.addSymref, Sym.stored]

theorem stored_inj : ∀ (a b : List Sym) (r r' : List Byte), a.length = b.length → (∀ x ∈ a, (0 : Byte) ∉ x.name) →
    (∀ x ∈ b, (0 : Byte) ∉ x.name) → (a.map Sym.stored).flatten ++ r = (b.map Sym.stored).flatten ++ r' →
    a.map Sym.name = b.map Sym.name := by
  intro a
  induction a with
  | nil => intro b r r' h _ _ _; cases b with
    | nil => rfl
    | cons _ _ => simp at h
  | cons x a ih =>
    intro b r r' h ha hb he
    cases b with
    | nil => simp at h
    | cons y b =>
      simp only [List.map_cons, List.flatten_cons, Sym.stored, List.append_assoc, List.singleton_append] at he
      have key : ∀ (n m : List Byte) (s s' : List Byte), (0 : Byte) ∉ n → (0 : Byte) ∉ m → n ++ 0 :: s = m ++ 0 :: s' →
          n = m ∧ s = s' := by
        intro n
        induction n with
        | nil =>
          intro m s s' _ hm e
          cases m with
          | nil => simp at e; exact ⟨rfl, e⟩
          | cons c m => simp at e; exact absurd e.1.symm (fun h => hm (by simp [h]))
        | cons d n ihn =>
          intro m s s' hn hm e
          cases m with
          | nil => simp at e; exact absurd e.1 (fun h => hn (by simp [h]))
          | cons c m =>
            simp only [List.cons_append, List.cons.injEq] at e
            obtain ⟨e1, e2⟩ := ihn m s s' (fun h => hn (List.mem_cons_of_mem _ h)) (fun h => hm (List.mem_cons_of_mem _ h)) e.2
            exact ⟨by rw [e.1, e1], e2⟩
      obtain ⟨e1, e2⟩ := key _ _ _ _ (ha x (by simp)) (hb y (by simp)) he
      simp only [List.map_cons, e1]
      congr 1
      exact ih b r r' (by simpa using h) (fun z hz => ha z (by simp [hz])) (fun z hz => hb z (by simp [hz])) e2

/-- The contents of the index member. -/
def Tab.body (t : Tab) : List Byte :=
  bytesOf .big 4 t.offs.length ++ (t.offs.map fun o => bytesOf .big 4 ((o + t.disp) % 2 ^ 32)).flatten ++ t.evenNames

/-- The index as an entry of the archive. -/
def Tab.entry (t : Tab) (date : Nat) : Ar.Spec.Entry :=
  ⟨.index, padR 12 (dec date), padR 6 [48], padR 6 [48], padR 8 [48], dec t.body.length, t.body⟩

theorem flat4_length (l : List Nat) (f : Nat → Nat) : ((l.map fun o => bytesOf .big 4 (f o)).flatten).length = 4 * l.length := by
  induction l with
  | nil => rfl
  | cons a l ih => simp only [List.map_cons, List.flatten_cons, List.length_append, bytesOf_length, ih, List.length_cons]; omega

theorem flat4_get (f : Nat → Nat) : ∀ (l : List Nat) (k : Nat) (h : k < l.length) (r : List Byte),
    (((l.map fun o => bytesOf .big 4 (f o)).flatten ++ r).drop (4 * k)).take 4 = bytesOf .big 4 (f l[k]) := by
  intro l
  induction l with
  | nil => intro k h; simp at h
  | cons a l ih =>
    intro k h r
    cases k with
    | zero =>
      simp only [List.map_cons, List.flatten_cons, Nat.mul_zero, List.drop_zero, List.getElem_cons_zero, List.append_assoc]
      rw [List.take_append_of_le_length (by rw [bytesOf_length]; omega), List.take_of_length_le (by rw [bytesOf_length]; omega)]
    | succ k =>
      simp only [List.map_cons, List.flatten_cons, List.getElem_cons_succ, List.append_assoc]
      rw [show 4 * (k + 1) = (bytesOf Endian.big 4 (f a)).length + 4 * k by rw [bytesOf_length]; omega, ← List.drop_drop, List.drop_left]
      exact ih k (by simpa using h) r

theorem evenNames_even (t : Tab) : t.evenNames.length % 2 = 0 := by
  unfold Tab.evenNames; simp; omega

theorem body_length (t : Tab) : t.body.length = 4 * (t.offs.length + 1) + t.evenNames.length := by
  unfold Tab.body
  rw [List.length_append, List.length_append, flat4_length t.offs (fun o => (o + t.disp) % 2 ^ 32), bytesOf_length]; omega

theorem index_bytes {t : Tab} {date : Nat} (hn : t.evenNames.length ≠ 0) (hl : t.body.length < 2 ^ 32) (hd : date < 10 ^ 12) :
    t.index date = (t.entry date).bytes ∧ ∀ tbl, (t.entry date).Valid tbl := by
  have hb := body_length t
  have he := evenNames_even t
  have hpar : t.body.length % 2 = 0 := by omega
  have h12 : (dec date).length ≤ 12 := dec_length (k := 11) hd
  have h10 : (dec t.body.length).length ≤ 10 := dec_length (k := 9) (by omega)
  constructor
  · unfold Tab.index
    rw [if_pos hn]
    unfold Ar.Spec.Entry.bytes Tab.entry
    simp only [hpar, List.replicate_zero, List.append_nil]
    unfold Tab.symsoff
    rw [show (t.offLen + t.evenNames.length - 60) % 2 ^ 32 = t.body.length by unfold Tab.offLen; omega]
    unfold Ar.Spec.Entry.header arHdr Tab.body
    simp [Ar.Spec.Name.field, padR]
  · intro tbl
    refine ⟨trivial, padR_length h12, show (padR 6 [48]).length = 6 from by decide, show (padR 6 [48]).length = 6 from by decide,
      show (padR 8 [48]).length = 8 from by decide, dec_ne _, h10, dec_digits _, dec_val _⟩

/-- What `elf_getarsym` finds in an archive that begins with the index. -/
theorem getarsym_index_mod {refs : List Sym} {date : Nat} {t : Tab} {ms : List Ar.Spec.Entry} {i : Img}
    (hoffs : t.offs = refs.map (fun s => s.off % 2 ^ 32)) (hnames : t.names = (refs.map Sym.stored).flatten)
    (hne : refs ≠ []) (hnul : ∀ s ∈ refs, (0 : Byte) ∉ s.name)
    (hsmall : ∀ s ∈ refs, s.off < 2 ^ 32) (hl : t.body.length < 2 ^ 32) (hd : date < 10 ^ 12)
    (hp : Placed i [] (Ar.Spec.entries (t.entry date :: ms))) (hms : 4 ≤ (Ar.Spec.entries ms).length) :
    getarsym i = .ok (some (refs.map fun s => ⟨s.name, (s.off + t.disp) % 2 ^ 32⟩)) := by
  have hlen : t.offs.length = refs.length := by rw [hoffs]; simp
  have hb := body_length t
  have he := evenNames_even t
  have hrl : 0 < refs.length := List.length_pos_iff.mpr hne
  have hnl : 0 < t.names.length := by
    rw [hnames]
    cases refs with
    | nil => exact absurd rfl hne
    | cons s _ => simp only [List.map_cons, List.flatten_cons, Sym.stored, List.length_append, List.length_singleton]; omega
  have hne0 : t.evenNames.length ≠ 0 := by unfold Tab.evenNames; rw [List.length_append]; omega
  obtain ⟨hbytes, hvalid⟩ := index_bytes hne0 hl hd
  have hval := hvalid none
  have hpar : t.body.length % 2 = 0 := by omega
  have hidx : Indexed i 4 (dec t.body.length) t.body (Ar.Spec.entries ms) := by
    refine ⟨⟨[], padR 12 (dec date) ++ padR 6 [48] ++ padR 6 [48] ++ padR 8 [48], by rw [hp.start], ?_, ?_⟩, .inl rfl, dec_ne _,
      hval.size_len, dec_digits _, dec_val _, hp.max, hp.small⟩
    · have : (padR 12 (dec date)).length = 12 := padR_length (dec_length (k := 11) hd)
      simp only [List.length_append, this]
      decide
    · rw [hp.file]
      simp [Ar.Spec.entries, Ar.Spec.Entry.bytes, Tab.entry, hpar, Ar.Spec.Entry.header, Ar.Spec.Name.field, indexTag]
  have hbody : t.body = bytesOf .big 4 t.offs.length ++ ((t.offs.map fun o => bytesOf .big 4 ((o + t.disp) % 2 ^ 32)).flatten ++
      t.evenNames) := by unfold Tab.body; rw [List.append_assoc]
  have hcount : refs.length = valOf .big (t.body.take 4) := by
    rw [hbody, List.take_append_of_le_length (by rw [bytesOf_length]; omega), List.take_of_length_le (by rw [bytesOf_length]; omega),
      valOf_bytesOf, Nat.mod_eq_of_lt (by omega), hlen]
  have hdrop : t.body.drop (4 + refs.length * 4) = t.evenNames := by
    unfold Tab.body
    apply List.drop_left'
    rw [List.length_append, flat4_length t.offs (fun o => (o + t.disp) % 2 ^ 32), bytesOf_length]; omega
  have hcnt : refs.length ≤ t.evenNames.count 0 := by
    unfold Tab.evenNames
    rw [List.count_append, hnames]
    have : ∀ l : List Sym, l.length ≤ ((l.map Sym.stored).flatten).count 0 := by
      intro l
      induction l with
      | nil => simp
      | cons a l ih =>
        simp only [List.map_cons, List.flatten_cons, List.count_append, Sym.stored, List.length_cons]
        have : (List.count (0 : Byte) [0]) = 1 := by decide
        omega
    have := this refs
    omega
  obtain ⟨l, rest, h1, h2, h3, h4, h5⟩ := C25_index_partial hidx (by
    rcases hp.opened with h | h
    · exact .inl h.1
    · exact .inr ⟨h.2, hms⟩) (by omega) hcount (by omega) (by rw [hdrop]; exact hcnt)
  rw [h1]
  congr 2
  rw [hdrop] at h3
  have hnm : l.map Sym.name = refs.map Sym.name := by
    refine stored_inj l refs rest (List.replicate (t.names.length % 2) 0) h2 h4 hnul ?_
    have : t.evenNames = (refs.map Sym.stored).flatten ++ List.replicate (t.names.length % 2) 0 := by
      unfold Tab.evenNames; rw [hnames]
    rw [← this, h3]; rfl
  apply List.ext_getElem
  · simp [h2]
  · intro k hk1 hk2
    have hk : k < refs.length := by omega
    simp only [List.getElem_map]
    have hname : l[k].name = refs[k].name := by
      have := congrArg (fun x : List (List Byte) => x[k]?) hnm
      simp only [List.getElem?_map, List.getElem?_eq_getElem hk1, List.getElem?_eq_getElem hk, Option.map_some] at this
      injection this
    have hoff := h5 k l[k] (List.getElem?_eq_getElem hk1)
    have hoff2 : l[k].off = (refs[k].off + t.disp) % 2 ^ 32 := by
      rw [hoff, hbody]
      rw [show (4 : Nat) + k * 4 = (bytesOf Endian.big 4 t.offs.length).length + 4 * k by rw [bytesOf_length]; omega,
        ← List.drop_drop, List.drop_left, flat4_get (fun o => (o + t.disp) % 2 ^ 32) t.offs k (by omega), valOf_bytesOf]
      have h6 := hsmall refs[k] (List.getElem_mem hk)
      have h7 : t.offs[k]'(by omega) = refs[k].off % 2 ^ 32 := by simp only [hoffs, List.getElem_map]
      simp only [h7]
      rw [Nat.mod_eq_of_lt (show refs[k].off < 2 ^ 32 by omega)]
      exact Nat.mod_eq_of_lt (by omega)
    generalize l[k] = x at hname hoff2
    obtain ⟨a, b⟩ := x
    simp only at hname hoff2
    rw [hname, hoff2]

/-- The same while nothing wraps. -/
theorem getarsym_index {refs : List Sym} {date : Nat} {t : Tab} {ms : List Ar.Spec.Entry} {i : Img}
    (ht : t = Tab.init.addAll refs) (hne : refs ≠ []) (hnul : ∀ s ∈ refs, (0 : Byte) ∉ s.name)
    (hsmall : ∀ s ∈ refs, s.off + t.disp < 2 ^ 32) (hl : t.body.length < 2 ^ 32) (hd : date < 10 ^ 12)
    (hp : Placed i [] (Ar.Spec.entries (t.entry date :: ms))) (hms : 4 ≤ (Ar.Spec.entries ms).length) :
    getarsym i = .ok (some (refs.map fun s => ⟨s.name, s.off + t.disp⟩)) := by
  rw [getarsym_index_mod (by rw [ht, addAll_eq]; simp [Tab.init]) (by rw [ht, addAll_eq]; simp [Tab.init]) hne hnul (fun s hs => by have := hsmall s hs; omega) hl hd hp hms]
  congr 2
  apply List.map_congr_left
  intro s hs
  rw [Nat.mod_eq_of_lt (hsmall s hs)]

end Verif.Arlib
