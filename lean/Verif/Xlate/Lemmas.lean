import Verif.Xlate.Spec
namespace Verif.Xlate
open Verif

/-! ### Loads and stores -/

theorem wr_ok {m : Mem} {p : Nat} {bs : List Byte} (h : p + bs.length ≤ m.length) :
    ∃ m', wr m p bs = .ok m' ∧ m'.length = m.length ∧
      (∀ k, k < bs.length → m'[p + k]? = bs[k]?) ∧
      (∀ a, a < p ∨ p + bs.length ≤ a → m'[a]? = m[a]?) := by
  refine ⟨m.take p ++ bs ++ m.drop (p + bs.length), by unfold wr; rw [if_pos h], ?_, ?_, ?_⟩
  · simp; omega
  · intro k hk
    have hp : (m.take p).length = p := by simp; omega
    rw [List.append_assoc, List.getElem?_append_right (by omega), hp,
      List.getElem?_append_left (by omega)]
    congr 1; omega
  · intro a ha
    have hp : (m.take p).length = p := by simp; omega
    rcases ha with ha | ha
    · rw [List.append_assoc, List.getElem?_append_left (by omega), List.getElem?_take_of_lt ha]
    · rw [List.getElem?_append_right (by simp; omega), List.getElem?_drop]
      congr 1; simp; omega

theorem rdN_get {m : Mem} {p n : Nat} (h : p + n ≤ m.length) :
    ∃ bs, rdN m p n = .ok bs ∧ bs.length = n ∧ ∀ k, k < n → bs[k]? = m[p + k]? := by
  refine ⟨(m.drop p).take n, rdN_ok h, by simp; omega, ?_⟩
  intro k hk
  rw [List.getElem?_take_of_lt hk, List.getElem?_drop]

/-- Both buffers lie inside memory. -/
def Fits (w : Win) (m : Mem) : Prop := w.src + w.len ≤ m.length ∧ w.dst + w.len ≤ m.length

/-- Where byte `k` of a converted field comes from. -/
def Op.from (op : Op) (k : Nat) : Nat := if op.swap then op.w - 1 - k else k

theorem doOp_ok {w : Win} {m : Mem} {op : Op} (hf : Fits w m) (h : op.off + op.w ≤ w.len) :
    ∃ m', doOp w m op = .ok m' ∧ m'.length = m.length ∧
      (∀ k, k < op.w → m'[w.dst + op.off + k]? = m[w.src + op.off + op.from k]?) ∧
      (∀ a, a < w.dst + op.off ∨ w.dst + op.off + op.w ≤ a → m'[a]? = m[a]?) := by
  obtain ⟨h1, h2⟩ := hf
  obtain ⟨bs, hb, hl, hg⟩ := @rdN_get m (w.src + op.off) op.w (by omega)
  have hl' : (if op.swap then bs.reverse else bs).length = op.w := by split <;> simp [hl]
  obtain ⟨m', hw, hlen, hin, hout⟩ :=
    @wr_ok m (w.dst + op.off) (if op.swap then bs.reverse else bs) (by omega)
  refine ⟨m', ?_, hlen, ?_, ?_⟩
  · unfold doOp ldS stD
    rw [if_pos h, hb]
    simp only [Res.bind_ok]
    rw [if_pos (by omega), hw]
  · intro k hk
    rw [hin k (by omega)]
    unfold Op.from
    split
    · rw [List.getElem?_reverse (by omega), hl]
      exact hg _ (by omega)
    · exact hg k hk
  · intro a ha
    exact hout a (by omega)

/-- An earlier assignment `a` does not disturb a later one `b`: it does not store where `b` loads,
nor where `b` stores. -/
def Safe (w : Win) (a b : Op) : Prop :=
  (w.dst + a.off + a.w ≤ w.src + b.off ∨ w.src + b.off + b.w ≤ w.dst + a.off) ∧
  (a.off + a.w ≤ b.off ∨ b.off + b.w ≤ a.off)

theorem runOps_ok (w : Win) (ops : List Op) : ∀ (m : Mem), Fits w m →
    (∀ op ∈ ops, op.off + op.w ≤ w.len) → ops.Pairwise (Safe w) →
    ∃ m', runOps w ops m = .ok m' ∧ m'.length = m.length ∧
      (∀ op ∈ ops, ∀ k, k < op.w → m'[w.dst + op.off + k]? = m[w.src + op.off + op.from k]?) ∧
      (∀ a, (∀ op ∈ ops, a < w.dst + op.off ∨ w.dst + op.off + op.w ≤ a) → m'[a]? = m[a]?) := by
  induction ops with
  | nil => intro m _ _ _; exact ⟨m, rfl, rfl, by simp, fun _ _ => rfl⟩
  | cons op ops ih =>
    intro m hf hin hp
    rw [List.pairwise_cons] at hp
    obtain ⟨m1, e1, l1, g1, o1⟩ := doOp_ok hf (hin op (by simp))
    have hf1 : Fits w m1 := ⟨by rw [l1]; exact hf.1, by rw [l1]; exact hf.2⟩
    obtain ⟨m2, e2, l2, g2, o2⟩ := ih m1 hf1 (fun o ho => hin o (by simp [ho])) hp.2
    refine ⟨m2, ?_, by omega, ?_, ?_⟩
    · unfold runOps; rw [e1]; exact e2
    · intro o ho k hk
      rcases List.mem_cons.1 ho with rfl | ho
      · rw [o2, g1 k hk]
        intro b hb
        have := (hp.1 b hb).2
        omega
      · rw [g2 o ho k hk, o1]
        have := (hp.1 o ho).1
        have hfr : o.from k < o.w := by unfold Op.from; split <;> omega
        omega
    · intro a ha
      rw [o2 a (fun b hb => ha b (by simp [hb])), o1 a (ha op (by simp))]

theorem runOps_append (w : Win) (xs ys : List Op) (m : Mem) :
    runOps w (xs ++ ys) m = (do let m ← runOps w xs m; runOps w ys m) := by
  induction xs generalizing m with
  | nil => rfl
  | cons x xs ih =>
    simp only [List.cons_append, runOps]
    cases doOp w m x with
    | ok m => simp only [Res.bind_ok]; exact ih m
    | err => rfl
    | ub => rfl

/-! ### Contiguous field lists -/

/-- The assignments for consecutive fields (width, swapped?) starting at offset `o`. -/
def opsFrom : Nat → List (Nat × Bool) → List Op
  | _, [] => []
  | o, (b, s) :: fs => ⟨o, b, s⟩ :: opsFrom (o + b) fs

theorem width_cons (f : Nat × Bool) (fs : List (Nat × Bool)) : width (f :: fs) = f.1 + width fs := by
  simp [width]

theorem width_append (a b : List (Nat × Bool)) : width (a ++ b) = width a + width b := by
  simp [width]

theorem opsFrom_append (o : Nat) (a b : List (Nat × Bool)) :
    opsFrom o (a ++ b) = opsFrom o a ++ opsFrom (o + width a) b := by
  induction a generalizing o with
  | nil => simp [opsFrom, width]
  | cons f a ih =>
    obtain ⟨x, s⟩ := f
    simp only [List.cons_append, opsFrom, width_cons, ih]
    rw [Nat.add_assoc]

theorem opsFrom_bounds (o : Nat) (fs : List (Nat × Bool)) : ∀ op ∈ opsFrom o fs,
    o ≤ op.off ∧ op.off + op.w ≤ o + width fs := by
  induction fs generalizing o with
  | nil => simp [opsFrom]
  | cons f fs ih =>
    obtain ⟨b, s⟩ := f
    intro op hop
    rw [width_cons]
    rcases List.mem_cons.1 hop with rfl | hop
    · simp
    · have := ih (o + b) op hop
      simp only at *
      omega

theorem opsFrom_pairwise (o : Nat) (fs : List (Nat × Bool)) :
    (opsFrom o fs).Pairwise (fun a b => a.off + a.w ≤ b.off) := by
  induction fs generalizing o with
  | nil => simp [opsFrom]
  | cons f fs ih =>
    obtain ⟨b, s⟩ := f
    simp only [opsFrom, List.pairwise_cons]
    exact ⟨fun a ha => (opsFrom_bounds _ _ a ha).1, ih _⟩

theorem opsFrom_cover (o : Nat) (fs : List (Nat × Bool)) (i : Nat) (h1 : o ≤ i)
    (h2 : i < o + width fs) : ∃ op ∈ opsFrom o fs, op.off ≤ i ∧ i < op.off + op.w := by
  induction fs generalizing o with
  | nil => simp [width] at h2; omega
  | cons f fs ih =>
    obtain ⟨b, s⟩ := f
    rw [width_cons] at h2
    by_cases h : i < o + b
    · exact ⟨⟨o, b, s⟩, by simp [opsFrom], h1, h⟩
    · obtain ⟨op, hop, h3⟩ := ih (o + b) (by omega) (by simp only at h2; omega)
      exact ⟨op, by simp [opsFrom, hop], h3⟩

/-- Buffers for which a forward pass is safe: the destination starts at or before the source, or
lies behind its end. -/
def FwdOk (w : Win) : Prop := w.dst ≤ w.src ∨ w.src + w.len ≤ w.dst

theorem fwd_safe {w : Win} (h : FwdOk w) {ops : List Op} (hin : ∀ op ∈ ops, op.off + op.w ≤ w.len)
    (hp : ops.Pairwise (fun a b => a.off + a.w ≤ b.off)) : ops.Pairwise (Safe w) := by
  induction ops with
  | nil => simp
  | cons a ops ih =>
    rw [List.pairwise_cons] at hp ⊢
    refine ⟨?_, ih (fun o ho => hin o (by simp [ho])) hp.2⟩
    intro b hb
    have h1 := hp.1 b hb
    have h2 := hin a (by simp)
    have h3 := hin b (by simp [hb])
    unfold Safe
    rcases h with h | h <;> omega

theorem bwd_safe {w : Win} (h : w.src ≤ w.dst) {ops : List Op}
    (hp : ops.Pairwise (fun a b => b.off + b.w ≤ a.off)) : ops.Pairwise (Safe w) := by
  refine hp.imp ?_
  intro a b hab
  unfold Safe
  omega

/-! ### Fundamental types -/

theorem fundFwd_eq (w : Win) (b n o : Nat) (m : Mem) :
    fundFwd w b n o m = runOps w (opsFrom o (List.replicate n (b, true))) m := by
  induction n generalizing o m with
  | zero => rfl
  | succ n ih =>
    simp only [fundFwd, List.replicate_succ, opsFrom, runOps]
    cases doOp w m ⟨o, b, true⟩ with
    | ok m => simp only [Res.bind_ok]; exact ih _ _
    | err => rfl
    | ub => rfl

theorem fundBwd_eq (w : Win) (b n : Nat) (m : Mem) :
    fundBwd w b n (n * b) m = runOps w (opsFrom 0 (List.replicate n (b, true))).reverse m := by
  induction n generalizing m with
  | zero => rfl
  | succ n ih =>
    have e1 : (n + 1) * b - b = n * b := by rw [Nat.add_mul]; omega
    have e2 : List.replicate (n + 1) (b, true) = List.replicate n (b, true) ++ [(b, true)] := by
      rw [List.replicate_succ']
    have e3 : width (List.replicate n (b, true)) = n * b := by simp [width]
    rw [e2, opsFrom_append, e3]
    simp only [fundBwd, e1, opsFrom, Nat.zero_add, List.reverse_append, List.reverse_cons,
      List.reverse_nil, List.nil_append, List.singleton_append, runOps]
    cases doOp w m ⟨n * b, b, true⟩ with
    | ok m => simp only [Res.bind_ok]; exact ih _
    | err => rfl
    | ub => rfl

/-! ### What a conversion achieves -/

/-- The destination buffer of `m'` holds the consecutive fields `fs` of the source buffer of `m`,
swapped where the field says so, and nothing else has changed. -/
structure Conv (w : Win) (fs : List (Nat × Bool)) (m m' : Mem) : Prop where
  length : m'.length = m.length
  fields : ∀ op ∈ opsFrom 0 fs, ∀ k, k < op.w →
    m'[w.dst + op.off + k]? = m[w.src + op.off + op.from k]?
  outside : ∀ a, a < w.dst ∨ w.dst + width fs ≤ a → m'[a]? = m[a]?

theorem runOps_conv (w : Win) (fs : List (Nat × Bool)) (m : Mem) (hf : Fits w m)
    (hw : width fs ≤ w.len) (hs : FwdOk w) :
    ∃ m', runOps w (opsFrom 0 fs) m = .ok m' ∧ Conv w fs m m' := by
  have hin : ∀ op ∈ opsFrom 0 fs, op.off + op.w ≤ w.len := by
    intro op hop; have := opsFrom_bounds 0 fs op hop; omega
  obtain ⟨m', e, l, g, o⟩ := runOps_ok w _ m hf hin (fwd_safe hs hin (opsFrom_pairwise 0 fs))
  refine ⟨m', e, l, g, ?_⟩
  intro a ha
  apply o
  intro op hop
  have := opsFrom_bounds 0 fs op hop
  omega

theorem runOps_conv_rev (w : Win) (fs : List (Nat × Bool)) (m : Mem) (hf : Fits w m)
    (hw : width fs ≤ w.len) (hs : w.src ≤ w.dst) :
    ∃ m', runOps w (opsFrom 0 fs).reverse m = .ok m' ∧ Conv w fs m m' := by
  have hin : ∀ op ∈ (opsFrom 0 fs).reverse, op.off + op.w ≤ w.len := by
    intro op hop; have := opsFrom_bounds 0 fs op (List.mem_reverse.1 hop); omega
  obtain ⟨m', e, l, g, o⟩ := runOps_ok w _ m hf hin (bwd_safe hs (by
    rw [List.pairwise_reverse]; exact opsFrom_pairwise 0 fs))
  refine ⟨m', e, l, fun op hop => g op (List.mem_reverse.2 hop), ?_⟩
  intro a ha
  apply o
  intro op hop
  have := opsFrom_bounds 0 fs op (List.mem_reverse.1 hop)
  omega

theorem cvtFund_conv (b : Nat) (w : Win) (m : Mem) (hf : Fits w m) (hd : w.len % b = 0) :
    ∃ m', cvtFund b w m = .ok m' ∧ Conv w (List.replicate (w.len / b) (b, true)) m m' := by
  have hw : width (List.replicate (w.len / b) (b, true)) = w.len := by
    have h := Nat.div_add_mod w.len b
    rw [hd] at h
    simp only [width, List.map_replicate, List.sum_replicate_nat]
    rw [Nat.mul_comm]; omega
  unfold cvtFund
  simp only
  by_cases h : w.dst < w.src
  · rw [if_pos h, fundFwd_eq]
    exact runOps_conv w _ m hf (by omega) (Or.inl (by omega))
  · rw [if_neg h]
    have e : w.len = w.len / b * b := by
      have h := Nat.div_add_mod w.len b
      rw [hd] at h; rw [Nat.mul_comm]; omega
    have : fundBwd w b (w.len / b) w.len m = fundBwd w b (w.len / b) (w.len / b * b) m := by
      rw [← e]
    rw [this, fundBwd_eq]
    exact runOps_conv_rev w _ m hf (by omega) (by omega)

theorem cvtByte_conv (w : Win) (m : Mem) (hf : Fits w m) :
    ∃ m', cvtByte w m = .ok m' ∧ Conv w [(w.len, false)] m m' := by
  unfold cvtByte
  by_cases h : w.len ≠ 0
  · rw [if_pos h]
    obtain ⟨m', e, l, g, o⟩ := @doOp_ok w m ⟨0, w.len, false⟩ hf (by simp)
    refine ⟨m', by unfold doOp at e; exact e, l, ?_, ?_⟩
    · intro op hop k hk
      simp only [opsFrom, List.mem_singleton] at hop
      subst hop
      exact g k hk
    · intro a ha
      apply o
      simp only [width, List.map_cons, List.map_nil, List.sum_cons, List.sum_nil] at ha
      simp only
      omega
  · rw [if_neg h]
    refine ⟨m, rfl, rfl, ?_, fun _ _ => rfl⟩
    intro op hop k hk
    simp only [opsFrom, List.mem_singleton] at hop
    subst hop
    simp only at hk
    omega

/-- Record loops whose assignments are the consecutive fields `fs`. -/
theorem recLoop_eq (w : Win) (fs : List (Nat × Bool)) (size n base : Nat) (m : Mem)
    (hs : width fs = size) :
    recLoop w size (opsFrom 0 fs) n base m
      = runOps w (opsFrom base (List.replicate n fs).flatten) m := by
  have shift : ∀ (o b : Nat) (fs : List (Nat × Bool)),
      (opsFrom o fs).map (fun op => { op with off := b + op.off }) = opsFrom (b + o) fs := by
    intro o b fs
    induction fs generalizing o with
    | nil => rfl
    | cons f fs ih =>
      obtain ⟨x, s⟩ := f
      simp only [opsFrom, List.map_cons, ih, Nat.add_assoc]
  induction n generalizing base m with
  | zero => rfl
  | succ n ih =>
    simp only [recLoop, List.replicate_succ, List.flatten_cons, opsFrom_append, runOps_append,
      hs, shift, Nat.add_zero]
    cases runOps w (opsFrom base fs) m with
    | ok m => simp only [Res.bind_ok]; exact ih _ _
    | err => rfl
    | ub => rfl

theorem width_replicate (n : Nat) (fs : List (Nat × Bool)) :
    width (List.replicate n fs).flatten = n * width fs := by
  induction n with
  | zero => simp [width]
  | succ n ih =>
    rw [List.replicate_succ, List.flatten_cons, width_append, ih, Nat.add_mul]
    omega

theorem cvtRec_conv (size : Nat) (fs : List (Nat × Bool)) (w : Win) (m : Mem) (hf : Fits w m)
    (hs : width fs = size) (hw : FwdOk w) :
    ∃ m', cvtRec size (opsFrom 0 fs) w m = .ok m' ∧
      Conv w (List.replicate (w.len / size) fs).flatten m m' := by
  unfold cvtRec
  rw [recLoop_eq _ _ _ _ _ _ hs]
  refine runOps_conv w _ m hf ?_ hw
  rw [width_replicate, hs]
  exact Nat.div_mul_le_self _ _

end Verif.Xlate
