import Verif.DelTree

/-
Deleting a directory deletes what is in it and nothing else, if there are no links in it and paths are not too long (C124).
-/
namespace Verif.DelTree
open CStr

/-- The text of a path. -/
def text : Path → Bytes
  | [] => []
  | n :: p => 47 :: (n ++ text p)

def GoodName (n : Name) : Prop := n ≠ [] ∧ (47 : UInt8) ∉ n

/-- A file system: each path once, each entry is in a directory. -/
structure Wf (fs : Fs) : Prop where
  once : (fs.map (·.1)).Nodup
  parent : ∀ e ∈ fs, e.1 ≠ [] ∧ kindOf fs e.1.dropLast = some .dir
  names : ∀ e ∈ fs, ∀ n ∈ e.1, GoodName n

/-- Something at this place or below it can't be removed. -/
def stuck (locked : Path → Bool) (fs : Fs) (q : Path) : Bool := fs.any (fun f => q.isPrefixOf f.1 && locked f.1)

theorem text_append (p q : Path) : text (p ++ q) = text p ++ text q := by
  induction p with
  | nil => rfl
  | cons n p ih => simp [text, ih]

theorem parts_text (p : Path) (h : ∀ n ∈ p, GoodName n) : parts (text p) = p := by
  have key : (text p).foldr (fun c (r : Name × Path) => if c = 47 then ([], if r.1 = [] then r.2 else r.1 :: r.2) else (c :: r.1, r.2)) ([], []) =
      ([], p) := by
    induction p with
    | nil => rfl
    | cons n p ih =>
      have ih := ih (fun m hm => h m (List.mem_cons_of_mem _ hm))
      obtain ⟨h1, h2⟩ := h n (by simp)
      have hn : ∀ (n : Name), (47 : UInt8) ∉ n → n.foldr (fun c (r : Name × Path) => if c = 47 then ([], if r.1 = [] then r.2 else r.1 :: r.2) else (c :: r.1, r.2))
          ([], p) = (n, p) := by
        intro n
        induction n with
        | nil => intro _; rfl
        | cons c n ih =>
          intro h
          have hc : c ≠ 47 := fun q => h (by simp [q])
          rw [List.foldr_cons, ih (fun q => h (by simp [q])), if_neg hc]
      simp only [text, List.foldr_cons, List.foldr_append, ih, hn n h2, if_true, if_neg h1]
  simp [parts, key]

/-! ### Entries -/

theorem snoc_cases {α : Type} (l : List α) : l = [] ∨ ∃ r m, l = r ++ [m] := by
  rcases List.eq_nil_or_concat l with h | ⟨r, m, h⟩
  · exact .inl h
  · exact .inr ⟨r, m, by simpa using h⟩

theorem kindOf_of_mem {fs : Fs} (hw : Wf fs) {p : Path} {k : Kind} (h : (p, k) ∈ fs) : kindOf fs p = some k := by
  have hp : p ≠ [] := (hw.parent _ h).1
  have hn := hw.once
  clear hw
  unfold kindOf
  rw [if_neg hp]
  induction fs with
  | nil => simp at h
  | cons e fs ih =>
    rw [List.map_cons, List.nodup_cons] at hn
    rw [List.find?_cons]
    rcases List.mem_cons.1 h with q | q
    · rw [← q]; simp
    · have : (e.1 == p) = false := by
        rw [beq_eq_false_iff_ne]
        intro r
        exact hn.1 (r ▸ List.mem_map.2 ⟨_, q, rfl⟩)
      rw [this]
      exact ih q hn.2

theorem mem_of_kindOf {fs : Fs} {p : Path} {k : Kind} (hp : p ≠ []) (h : kindOf fs p = some k) : (p, k) ∈ fs := by
  unfold kindOf at h
  rw [if_neg hp] at h
  cases hf : fs.find? (fun e => e.1 == p) with
  | none => rw [hf] at h; cases h
  | some e =>
    rw [hf] at h
    have h1 := List.mem_of_find?_eq_some hf
    have h2 := List.find?_some hf
    simp only [beq_iff_eq] at h2
    simp only [Option.map_some, Option.some.injEq] at h
    subst h2 h
    exact h1

theorem kindOf_filter (g : Path → Bool) (fs : Fs) (p : Path) :
    kindOf (fs.filter (fun e => g e.1)) p = if p = [] ∨ g p = true then kindOf fs p else none := by
  unfold kindOf
  by_cases hp : p = []
  · simp [hp]
  · simp only [hp, false_or]
    rw [List.find?_filter]
    by_cases hg : g p = true
    · rw [if_pos hg]
      have : (fun e : Path × Kind => decide (g e.1 = true ∧ (e.1 == p) = true)) = (fun e => e.1 == p) := by
        funext e
        cases h : (e.1 == p)
        · simp
        · simp only [beq_iff_eq] at h
          simp [h, hg]
      rw [this]
    · rw [if_neg hg]
      have : fs.find? (fun e => decide (g e.1 = true ∧ (e.1 == p) = true)) = none := by
        rw [List.find?_eq_none]
        intro e _ q
        simp only [beq_iff_eq, decide_eq_true_eq] at q
        exact hg (q.2 ▸ q.1)
      rw [this]; simp

theorem mem_children {fs : Fs} {p : Path} {n : Name} : n ∈ children fs p ↔ ∃ k, (p ++ [n], k) ∈ fs := by
  unfold children
  rw [List.mem_filterMap]
  constructor
  · rintro ⟨⟨q, k⟩, h, e⟩
    dsimp only at e
    rcases snoc_cases q with rfl | ⟨r, m, rfl⟩
    · simp at e
    · simp only [List.getLast?_append, List.getLast?_singleton, Option.some_or, List.dropLast_concat] at e
      split at e
      · rename_i hr
        cases e
        exact ⟨k, hr ▸ h⟩
      · cases e
  · rintro ⟨k, h⟩
    exact ⟨_, h, by simp⟩

theorem nodup_children {fs : Fs} (h : (fs.map (·.1)).Nodup) (p : Path) : (children fs p).Nodup := by
  induction fs with
  | nil => simp [children]
  | cons e fs ih =>
    rw [List.map_cons, List.nodup_cons] at h
    have ih := ih h.2
    unfold children at *
    rw [List.filterMap_cons]
    split
    · exact ih
    · rename_i n hn
      rw [List.nodup_cons]
      refine ⟨fun q => ?_, ih⟩
      obtain ⟨k, hk⟩ := mem_children.1 q
      apply h.1
      rcases snoc_cases e.1 with r | ⟨r, m, hr⟩
      · simp [r] at hn
      · rw [hr] at hn
        simp only [List.getLast?_append, List.getLast?_singleton, Option.some_or, List.dropLast_concat] at hn
        split at hn
        · rename_i hp
          cases hn
          rw [hr, hp]
          exact List.mem_map.2 ⟨_, hk, rfl⟩
        · cases hn

theorem prefix_mem {fs : Fs} (hw : Wf fs) : ∀ (q r : Path) (k : Kind), (q ++ r, k) ∈ fs → q ≠ [] → ∃ k', (q, k') ∈ fs := by
  intro q r
  induction h : r.length generalizing r with
  | zero =>
    intro k hk _
    have : r = [] := List.length_eq_zero_iff.1 h
    rw [this, List.append_nil] at hk
    exact ⟨k, hk⟩
  | succ n ih =>
    intro k hk hq
    rcases snoc_cases r with rfl | ⟨s, m, rfl⟩
    · simp at h
    · have hp := (hw.parent _ hk).2
      rw [← List.append_assoc, List.dropLast_concat] at hp
      have hne : q ++ s ≠ [] := by simp [hq]
      exact ih s (by simpa using h) .dir (mem_of_kindOf hne hp) hq

/-! ### Ways -/

/-- `r` is a way down from `p` without links. -/
def Chain (fs : Fs) : (p r : Path) → Prop
  | _, [] => True
  | p, n :: r => (kindOf fs (p ++ [n]) = some .dir ∨ (r = [] ∧ kindOf fs (p ++ [n]) = some .file)) ∧ Chain fs (p ++ [n]) r

theorem walk_chain (k : Path → Option Path) (fs : Fs) (fl : Bool) : ∀ (r p : Path), Chain fs p r → walkWith k fs fl p r = some (p ++ r)
  | [], p, _ => by simp [walkWith]
  | n :: r, p, h => by
    unfold Chain at h
    obtain ⟨h1, h2⟩ := h
    unfold walkWith
    rcases h1 with h1 | ⟨rfl, h1⟩
    · rw [h1]
      dsimp only
      rw [walk_chain k fs fl r (p ++ [n]) h2]
      simp
    · rw [h1]
      simp

theorem chain_append (fs : Fs) : ∀ (q p r : Path), (∀ s, s ≠ [] → s <+: q → kindOf fs (p ++ s) = some .dir) → Chain fs (p ++ q) r → Chain fs p (q ++ r)
  | [], p, r, _, h => by simpa using h
  | n :: q, p, r, h, hr => by
    unfold Chain
    refine ⟨.inl (h [n] (by simp) (by simp)), chain_append fs q (p ++ [n]) r ?_ (by simpa using hr)⟩
    intro s hs hp
    have := h (n :: s) (by simp) ((List.prefix_cons_inj n).2 hp)
    simpa using this

/-- Outside of `p` there is the same. -/
def Agree (p : Path) (fs fs' : Fs) : Prop := ∀ q, ¬ p <+: q → kindOf fs' q = kindOf fs q

/-- The path `a` leads to `p`, and stays so whatever is deleted in `p`. `own`: without following a link at its end. -/
def Leads (own : Bool) (fs : Fs) (a p : Path) : Prop :=
  ∀ fs', Agree p fs fs' → kindOf fs' p = some .dir → ∀ r fl, (r ≠ [] ∨ fl = true ∨ own = true) → Chain fs' p r → walk fs' fl 40 (a ++ r) = some (p ++ r)

/-- All on the way is a directory. -/
def Real (fs : Fs) (p : Path) : Prop := ∀ q, q <+: p → kindOf fs q = some .dir

theorem walk_real {fs : Fs} {p r : Path} (fl : Bool) (n : Nat) (h : Real fs p) (hc : Chain fs p r) : walk fs fl n (p ++ r) = some (p ++ r) := by
  have : Chain fs [] (p ++ r) := chain_append fs p [] r (fun s _ hs => by simpa using h s hs) (by simpa using hc)
  cases n with
  | zero => simpa [walk] using walk_chain (fun _ => none) fs fl (p ++ r) [] this
  | succ n => simpa [walk] using walk_chain (walk fs fl n) fs fl (p ++ r) [] this

theorem not_below {p q : Path} (h : q <+: p) (hne : q ≠ p) : ¬ p <+: q := fun g => hne (h.eq_of_length_le g.length_le)

theorem real_agree {fs fs' : Fs} {p : Path} (h : Real fs p) (ha : Agree p fs fs') (hp : kindOf fs' p = some .dir) : Real fs' p := by
  intro q hq
  by_cases e : q = p
  · rw [e]; exact hp
  · rw [ha q (not_below hq e)]
    exact h q hq

theorem leads_real {fs : Fs} {p : Path} (h : Real fs p) : Leads true fs p p :=
  fun _ ha hp _ fl _ hc => walk_real fl 40 (real_agree h ha hp) hc

/-- Through a link. -/
theorem leads_link {fs : Fs} {p t : Path} {n : Name} (h : Real fs p) (hl : kindOf fs (p ++ [n]) = some (.link t)) (ht : Real fs t)
    (hn : ¬ t <+: p ++ [n]) : Leads false fs (p ++ [n]) t := by
  intro fs' ha hp r fl hr hc
  have hreal : Real fs' p := by
    intro q hq
    rw [ha q (fun g => hn (g.trans (hq.trans (List.prefix_append _ _))))]
    exact h q hq
  have hlink : kindOf fs' (p ++ [n]) = some (.link t) := by rw [ha _ hn]; exact hl
  have hw : ∀ (k : Path → Option Path) (q s : Path), q ++ s = p → walkWith k fs' fl q (s ++ n :: r) = k (t ++ r) := by
    intro k q s
    induction s generalizing q with
    | nil =>
      intro e
      rw [List.append_nil] at e
      subst e
      rw [List.nil_append]
      unfold walkWith
      rw [hlink]
      dsimp only
      rw [if_neg]
      rintro ⟨r1, r2⟩
      rcases hr with q | q | q
      · exact q r1
      · rw [r2] at q; cases q
      · cases q
    | cons m s ih =>
      intro e
      rw [List.cons_append]
      unfold walkWith
      rw [hreal (q ++ [m]) ⟨s, by simpa using e⟩]
      exact ih (q ++ [m]) (by simpa using e)
  rw [List.append_assoc]
  show walkWith (walk fs' fl 39) fs' fl [] (p ++ n :: r) = _
  rw [hw (walk fs' fl 39) [] p rfl]
  exact walk_real fl 39 (real_agree ht ha hp) hc

theorem leads_agree {own : Bool} {fs fs1 : Fs} {a p : Path} (h : Leads own fs a p) (ha : Agree p fs fs1) : Leads own fs1 a p :=
  fun fs' ha' hp r fl hr hc => h fs' (fun q hq => (ha' q hq).trans (ha q hq)) hp r fl hr hc

theorem below_trans {p q : Path} {n : Name} (h : ¬ p <+: q) : ¬ p ++ [n] <+: q := fun g => h ((List.prefix_append _ _).trans g)

theorem not_below_self (p : Path) (n : Name) : ¬ p ++ [n] <+: p := fun g => by
  have := g.length_le
  simp only [List.length_append, List.length_singleton] at this
  omega

theorem leads_child {own : Bool} {fs : Fs} {a p : Path} {n : Name} (h : Leads own fs a p) (hp : kindOf fs p = some .dir) :
    Leads true fs (a ++ [n]) (p ++ [n]) := by
  intro fs' ha hn r fl _ hc
  have := h fs' (fun q hq => ha q (below_trans hq)) ((ha p (not_below_self p n)).trans hp) (n :: r) fl (.inl (by simp)) ⟨.inl hn, hc⟩
  simpa using this

/-! ### Deleting -/

structure Ready (own : Bool) (fs : Fs) (a p : Path) : Prop where
  wf : Wf fs
  dir : kindOf fs p = some .dir
  plain : ∀ e ∈ fs, p <+: e.1 → ∀ t, e.2 ≠ .link t
  short : ∀ r k, (p ++ r, k) ∈ fs → (text (a ++ r)).length ≤ 1023
  leads : Leads own fs a p
  good : ∀ n ∈ a, GoodName n

/-- What may be left after a part of the work. -/
structure Rest (locked : Path → Bool) (p : Path) (g : Path → Bool) : Prop where
  outside : ∀ q, ¬ p <+: q → g q = true
  self : g p = true
  up : ∀ q n, g (q ++ [n]) = true → g q = true

theorem ready_filter {own : Bool} {locked : Path → Bool} {fs : Fs} {a p : Path} {g : Path → Bool} (h : Ready own fs a p) (hg : Rest locked p g) :
    Ready own (fs.filter (fun e => g e.1)) a p := by
  refine ⟨⟨?_, ?_, ?_⟩, ?_, ?_, ?_, ?_, h.good⟩
  · exact h.wf.once.sublist ((List.filter_sublist).map _)
  · intro e he
    rw [List.mem_filter] at he
    refine ⟨(h.wf.parent e he.1).1, ?_⟩
    rw [kindOf_filter, if_pos]
    · exact (h.wf.parent e he.1).2
    · right
      rcases snoc_cases e.1 with q | ⟨q, n, hq⟩
      · exact absurd q (h.wf.parent e he.1).1
      · rw [hq, List.dropLast_concat]
        exact hg.up q n (hq ▸ he.2)
  · exact fun e he => h.wf.names e (List.mem_filter.1 he).1
  · rw [kindOf_filter, if_pos (.inr hg.self)]
    exact h.dir
  · exact fun e he => h.plain e (List.mem_filter.1 he).1
  · exact fun r k hr => h.short r k (List.mem_filter.1 hr).1
  · apply leads_agree h.leads
    intro q hq
    rw [kindOf_filter, if_pos (.inr (hg.outside q hq))]

theorem ready_child {own : Bool} {fs : Fs} {a p : Path} {n : Name} (h : Ready own fs a p) (hn : kindOf fs (p ++ [n]) = some .dir) :
    Ready true fs (a ++ [n]) (p ++ [n]) := by
  refine ⟨h.wf, hn, fun e he hp => h.plain e he ((List.prefix_append _ _).trans hp), ?_, leads_child h.leads h.dir, ?_⟩
  · intro r k hr
    rw [List.append_assoc] at hr ⊢
    exact h.short _ k hr
  · intro m hm
    rcases List.mem_append.1 hm with q | q
    · exact h.good m q
    · rw [List.mem_singleton] at q
      subst q
      exact h.wf.names _ (mem_of_kindOf (by simp) hn) m (by simp)

theorem stuck_up {locked : Path → Bool} {fs : Fs} {q : Path} {n : Name} (h : stuck locked fs (q ++ [n]) = true) : stuck locked fs q = true := by
  unfold stuck at *
  rw [List.any_eq_true] at *
  obtain ⟨f, hf, h⟩ := h
  rw [Bool.and_eq_true, List.isPrefixOf_iff_prefix] at h
  exact ⟨f, hf, by rw [Bool.and_eq_true, List.isPrefixOf_iff_prefix]; exact ⟨(List.prefix_append _ _).trans h.1, h.2⟩⟩

theorem stuck_filter (locked : Path → Bool) (fs : Fs) (g : Path → Bool) (hg : ∀ f ∈ fs, locked f.1 = true → g f.1 = true) (q : Path) :
    stuck locked (fs.filter (fun e => g e.1)) q = stuck locked fs q := by
  unfold stuck
  rw [List.any_filter, Bool.eq_iff_iff, List.any_eq_true, List.any_eq_true]
  constructor
  · rintro ⟨f, hf, h⟩
    exact ⟨f, hf, by simp only [Bool.and_eq_true] at h ⊢; exact h.2⟩
  · rintro ⟨f, hf, h⟩
    refine ⟨f, hf, ?_⟩
    simp only [Bool.and_eq_true] at h ⊢
    exact ⟨hg f hf h.2, h⟩

theorem stuck_self {locked : Path → Bool} {fs : Fs} {f : Path × Kind} (hf : f ∈ fs) (h : locked f.1 = true) : stuck locked fs f.1 = true := by
  unfold stuck
  rw [List.any_eq_true]
  exact ⟨f, hf, by simp [h]⟩

/-- Below one of these names of `p`. -/
def gone (p : Path) (ns : List Name) (q : Path) : Bool := ns.any (fun n => (p ++ [n]).isPrefixOf q)

theorem gone_iff {p q : Path} {ns : List Name} : gone p ns q = true ↔ ∃ n ∈ ns, p ++ [n] <+: q := by
  simp [gone]

theorem rest_gone (locked : Path → Bool) (fs : Fs) (p : Path) (ns : List Name) : Rest locked p (fun q => !gone p ns q || stuck locked fs q) := by
  refine ⟨?_, ?_, ?_⟩
  · intro q hq
    cases h : gone p ns q
    · rfl
    · obtain ⟨n, _, hn⟩ := gone_iff.1 h
      exact absurd hn (below_trans hq)
  · cases h : gone p ns p
    · rfl
    · obtain ⟨n, _, hn⟩ := gone_iff.1 h
      exact absurd hn (not_below_self p n)
  · intro q n h
    cases hs : stuck locked fs q
    · cases hg : gone p ns q
      · rfl
      · exfalso
        have h1 : stuck locked fs (q ++ [n]) = false := by
          cases e : stuck locked fs (q ++ [n])
          · rfl
          · rw [stuck_up e] at hs; cases hs
        have h2 : gone p ns (q ++ [n]) = true := by
          obtain ⟨m, hm, hq⟩ := gone_iff.1 hg
          exact gone_iff.2 ⟨m, hm, hq.trans (List.prefix_append _ _)⟩
        simp [h1, h2] at h
    · simp

theorem full_name {own : Bool} {fs : Fs} {a p : Path} {n : Name} {k : Kind} (h : Ready own fs a p) (hn : (p ++ [n], k) ∈ fs) :
    fullName (text a) n = text (a ++ [n]) ∧ parts (text (a ++ [n])) = a ++ [n] := by
  have e : text (a ++ [n]) = text a ++ 47 :: n := by simp [text_append, text]
  have hs := h.short [n] k hn
  constructor
  · unfold fullName
    rw [← e, List.take_of_length_le hs]
  · apply parts_text
    intro m hm
    rcases List.mem_append.1 hm with q | q
    · exact h.good m q
    · rw [List.mem_singleton] at q
      subst q
      exact h.wf.names _ hn m (by simp)

theorem agree_refl (p : Path) (fs : Fs) : Agree p fs fs := fun _ _ => rfl

/-- The loop over the names. -/
theorem names_spec (locked : Path → Bool) (del : Fs → Bytes → Option (Fs × Bool)) (own : Bool) (a p : Path) (D : Nat)
    (hdel : ∀ (fs : Fs) (n : Name), Ready true fs (a ++ [n]) (p ++ [n]) → (∀ e ∈ fs, p ++ [n] <+: e.1 → e.1.length < p.length + 1 + D) →
      del fs (text (a ++ [n])) = some (fs.filter (fun e => !(p ++ [n]).isPrefixOf e.1 || stuck locked fs e.1), !stuck locked fs (p ++ [n]))) :
    ∀ (ns : List Name) (fs : Fs) (ok : Bool), Ready own fs a p → (∀ e ∈ fs, p <+: e.1 → e.1.length < p.length + 1 + D) → ns.Nodup →
      (∀ n ∈ ns, n ∈ children fs p) →
      delNames locked del (text a) ns fs ok = some (fs.filter (fun e => !gone p ns e.1 || stuck locked fs e.1),
        ok && ns.all (fun n => !stuck locked fs (p ++ [n])))
  | [], fs, ok, _, _, _, _ => by
    have : (fs.filter fun _ => true) = fs := List.filter_eq_self.2 (fun _ _ => rfl)
    simp [delNames, gone, this]
  | n :: ns, fs, ok, h, hD, hnd, hch => by
    obtain ⟨k, hk⟩ := mem_children.1 (hch n (by simp))
    obtain ⟨e1, e2⟩ := full_name h hk
    have hkind := kindOf_of_mem h.wf hk
    have hkk : k = .dir ∨ k = .file := by
      cases k with
      | file => exact .inr rfl
      | dir => exact .inl rfl
      | link t => exact absurd rfl (h.plain _ hk (List.prefix_append _ _) t)
    have hc : Chain fs p [n] := by
      refine ⟨?_, trivial⟩
      rcases hkk with rfl | rfl
      · exact .inl hkind
      · exact .inr ⟨rfl, hkind⟩
    have hst : ∀ fl, walk fs fl 40 (a ++ [n]) = some (p ++ [n]) := fun fl =>
      h.leads fs (agree_refl p fs) h.dir [n] fl (.inl (by simp)) hc
    -- what the step does
    have hstep : delNames locked del (text a) (n :: ns) fs ok =
        delNames locked del (text a) ns (fs.filter (fun e => !gone p [n] e.1 || stuck locked fs e.1)) (ok && !stuck locked fs (p ++ [n])) := by
      have hgone : ∀ q, gone p [n] q = (p ++ [n]).isPrefixOf q := fun q => by simp [gone]
      conv => lhs; unfold delNames
      rw [e1]
      rcases hkk with rfl | rfl
      · have : isDir fs (text (a ++ [n])) = true := by
          unfold isDir stat
          rw [e2, hst true]
          simp [hkind]
        rw [if_pos this, hdel fs n (ready_child h hkind) (fun e he hp => hD e he ((List.prefix_append _ _).trans hp))]
        simp only [hgone]
      · have : isDir fs (text (a ++ [n])) = false := by
          unfold isDir stat
          rw [e2, hst true]
          simp [hkind]
        rw [this]
        simp only [Bool.false_eq_true, if_false]
        have honly : ∀ e ∈ fs, p ++ [n] <+: e.1 → e.1 = p ++ [n] := by
          rintro ⟨q, kq⟩ he ⟨r, hr⟩
          cases r with
          | nil => simpa using hr.symm
          | cons m r =>
            exfalso
            have hm : (p ++ [n] ++ [m] ++ r, kq) ∈ fs := by
              have : p ++ [n] ++ [m] ++ r = q := by simpa using hr
              rw [this]; exact he
            obtain ⟨k', hk'⟩ := prefix_mem h.wf _ _ _ hm (by simp)
            have := (h.wf.parent _ hk').2
            rw [List.dropLast_concat, hkind] at this
            cases this
        have hl : stuck locked fs (p ++ [n]) = locked (p ++ [n]) := by
          rw [Bool.eq_iff_iff]
          constructor
          · intro q
            unfold stuck at q
            rw [List.any_eq_true] at q
            obtain ⟨f, hf, q⟩ := q
            rw [Bool.and_eq_true, List.isPrefixOf_iff_prefix] at q
            rw [← honly f hf q.1]
            exact q.2
          · exact fun q => stuck_self hk q
        have hrm : removeFile locked fs (text (a ++ [n])) =
            (fs.filter (fun e => !gone p [n] e.1 || stuck locked fs e.1), !stuck locked fs (p ++ [n])) := by
          unfold removeFile lstat
          rw [e2, hst false, hl]
          dsimp only
          by_cases hlk : locked (p ++ [n]) = true
          · rw [if_pos (.inr hlk), hlk]
            congr 1
            symm
            rw [List.filter_eq_self]
            intro e he
            rw [hgone]
            cases hp : (p ++ [n]).isPrefixOf e.1
            · rfl
            · rw [List.isPrefixOf_iff_prefix] at hp
              rw [honly e he hp, hl, hlk]
              simp
          · rw [if_neg (by simp [hlk]), hkind, if_neg (by simp)]
            have hlk' : locked (p ++ [n]) = false := by simpa using hlk
            rw [hlk']
            congr 1
            unfold unlink
            apply List.filter_congr
            intro e he
            rw [hgone]
            cases hp : (p ++ [n]).isPrefixOf e.1
            · have : e.1 ≠ p ++ [n] := fun q => by
                rw [q, List.isPrefixOf_iff_prefix.2 (List.prefix_refl _)] at hp
                cases hp
              simp [this]
            · rw [List.isPrefixOf_iff_prefix] at hp
              rw [honly e he hp, hl, hlk']
              simp
        rw [hrm]
    rw [hstep]
    have hrest := rest_gone locked fs p [n]
    have hr1 := ready_filter h hrest
    have hstk : ∀ q, stuck locked (fs.filter (fun e => !gone p [n] e.1 || stuck locked fs e.1)) q = stuck locked fs q :=
      stuck_filter locked fs (fun q => !gone p [n] q || stuck locked fs q) (fun f hf hl => by simp [stuck_self hf hl])
    rw [List.nodup_cons] at hnd
    have hch1 : ∀ m ∈ ns, m ∈ children (fs.filter (fun e => !gone p [n] e.1 || stuck locked fs e.1)) p := by
      intro m hm
      obtain ⟨km, hkm⟩ := mem_children.1 (hch m (by simp [hm]))
      refine mem_children.2 ⟨km, List.mem_filter.2 ⟨hkm, ?_⟩⟩
      have : gone p [n] (p ++ [m]) = false := by
        cases hq : gone p [n] (p ++ [m])
        · rfl
        · obtain ⟨x, hx, hp⟩ := gone_iff.1 hq
          rw [List.mem_singleton] at hx
          subst hx
          have := hp.eq_of_length (by simp)
          simp at this
          exact absurd (this ▸ hm) hnd.1
      simp [this]
    rw [names_spec locked del own a p D hdel ns _ _ hr1 (fun e he => hD e (List.mem_filter.1 he).1) hnd.2 hch1]
    congr 1
    rw [List.filter_filter]
    refine Prod.ext ?_ ?_
    · apply List.filter_congr
      intro e _
      rw [hstk]
      have : gone p (n :: ns) e.1 = (gone p [n] e.1 || gone p ns e.1) := by simp [gone]
      rw [this]
      cases gone p [n] e.1 <;> cases gone p ns e.1 <;> cases stuck locked fs e.1 <;> rfl
    · simp only [hstk, List.all_cons, Bool.and_assoc]

theorem browse_ready {own : Bool} {fs : Fs} {a p : Path} (h : Ready own fs a p) : browse fs (text a) = children fs p := by
  have hst : walk fs true 40 a = some p := by
    have := h.leads fs (agree_refl p fs) h.dir [] true (.inr (.inl rfl)) trivial
    simpa using this
  unfold browse stat
  rw [parts_text a h.good, hst]
  simp [h.dir]

theorem below_child {fs : Fs} (hw : Wf fs) {p : Path} {e : Path × Kind} (he : e ∈ fs) (h : p <+: e.1) (hne : e.1 ≠ p) :
    gone p (children fs p) e.1 = true := by
  obtain ⟨r, hr⟩ := h
  cases r with
  | nil => exact absurd (by simpa using hr.symm) hne
  | cons n r =>
    have hm : (p ++ [n] ++ r, e.2) ∈ fs := by
      have : p ++ [n] ++ r = e.1 := by simpa using hr
      rw [this]; exact he
    obtain ⟨k, hk⟩ := prefix_mem hw _ _ _ hm (by simp)
    exact gone_iff.2 ⟨n, mem_children.2 ⟨k, hk⟩, ⟨r, by simpa using hr⟩⟩

/-- Something in `p` is stuck if and only if `p` itself is locked or something below one of its names is stuck. -/
theorem stuck_split {locked : Path → Bool} {fs : Fs} (hw : Wf fs) {p : Path} (hp : p ≠ []) (hd : kindOf fs p = some .dir) :
    stuck locked fs p = (locked p || !(children fs p).all (fun n => !stuck locked fs (p ++ [n]))) := by
  rw [Bool.eq_iff_iff]
  constructor
  · intro h
    unfold stuck at h
    rw [List.any_eq_true] at h
    obtain ⟨f, hf, h⟩ := h
    rw [Bool.and_eq_true, List.isPrefixOf_iff_prefix] at h
    by_cases e : f.1 = p
    · rw [← e, h.2]; rfl
    · obtain ⟨n, hn, hpn⟩ := gone_iff.1 (below_child hw hf h.1 e)
      rw [Bool.or_eq_true]
      right
      simp only [Bool.not_eq_true', List.all_eq_false]
      refine ⟨n, hn, ?_⟩
      have : stuck locked fs (p ++ [n]) = true := by
        unfold stuck
        rw [List.any_eq_true]
        exact ⟨f, hf, by simp [hpn, h.2]⟩
      simp [this]
  · intro h
    rw [Bool.or_eq_true] at h
    rcases h with h | h
    · exact stuck_self (f := (p, .dir)) (mem_of_kindOf hp hd) h
    · simp only [Bool.not_eq_true', List.all_eq_false] at h
      obtain ⟨n, _, h⟩ := h
      exact stuck_up (by simpa using h)

/-- A directory without links, reached without a link at the end: everything in it which can be removed is, nothing else. -/
theorem tree_spec (locked : Path → Bool) : ∀ (D : Nat) (fs : Fs) (a p : Path), Ready true fs a p → p ≠ [] →
    (∀ e ∈ fs, p <+: e.1 → e.1.length < p.length + D) →
    delTree locked D fs (text a) = some (fs.filter (fun e => !p.isPrefixOf e.1 || stuck locked fs e.1), !stuck locked fs p)
  | 0, fs, a, p, h, hp, hD => by
    have := hD _ (mem_of_kindOf hp h.dir) (List.prefix_refl _)
    simp at this
  | D + 1, fs, a, p, h, hp, hD => by
    unfold delTree
    rw [browse_ready h]
    have hD' : ∀ e ∈ fs, p <+: e.1 → e.1.length < p.length + 1 + D := fun e he hq => by have := hD e he hq; omega
    rw [names_spec locked (delTree locked D) true a p D (fun fs1 n hr hd => tree_spec locked D fs1 (a ++ [n]) (p ++ [n]) hr (by simp)
      (fun e he hq => by have := hd e he hq; simp only [List.length_append, List.length_singleton]; omega)) (children fs p) fs true h hD'
      (nodup_children h.wf.once p) (fun _ q => q)]
    dsimp only
    have hrest := rest_gone locked fs p (children fs p)
    have h1 := ready_filter h hrest
    have hstk : ∀ q, stuck locked (fs.filter (fun e => !gone p (children fs p) e.1 || stuck locked fs e.1)) q = stuck locked fs q :=
      stuck_filter locked fs (fun q => !gone p (children fs p) q || stuck locked fs q) (fun f hf hl => by simp [stuck_self hf hl])
    have hsp := stuck_split (locked := locked) h.wf hp h.dir
    generalize hall : (children fs p).all (fun n => !stuck locked fs (p ++ [n])) = all at *
    have hst : walk (fs.filter (fun e => !gone p (children fs p) e.1 || stuck locked fs e.1)) false 40 a = some p := by
      have := h1.leads _ (agree_refl p _) h1.dir [] false (.inr (.inr rfl)) trivial
      simpa using this
    have hch : children (fs.filter (fun e => !gone p (children fs p) e.1 || stuck locked fs e.1)) p = [] ↔ all = true := by
      rw [← hall, List.all_eq_true]
      constructor
      · intro q n hn
        cases hs : stuck locked fs (p ++ [n])
        · rfl
        · exfalso
          obtain ⟨k, hk⟩ := mem_children.1 hn
          have : n ∈ children (fs.filter (fun e => !gone p (children fs p) e.1 || stuck locked fs e.1)) p :=
            mem_children.2 ⟨k, List.mem_filter.2 ⟨hk, by simp [hs]⟩⟩
          rw [q] at this
          simp at this
      · intro q
        rw [List.eq_nil_iff_forall_not_mem]
        intro n hn
        obtain ⟨k, hk⟩ := mem_children.1 hn
        rw [List.mem_filter] at hk
        have hn' : n ∈ children fs p := mem_children.2 ⟨k, hk.1⟩
        have h2 := q n hn'
        have h3 : gone p (children fs p) (p ++ [n]) = true := gone_iff.2 ⟨n, hn', List.prefix_refl _⟩
        simp only [Bool.not_eq_true'] at h2
        simp [h2, h3] at hk
    have hkeep : ∀ e ∈ fs, e.1 ≠ p → (!gone p (children fs p) e.1 || stuck locked fs e.1) = (!p.isPrefixOf e.1 || stuck locked fs e.1) := by
      intro e he hne
      congr 2
      rw [Bool.eq_iff_iff, List.isPrefixOf_iff_prefix]
      constructor
      · intro q
        obtain ⟨n, _, hn⟩ := gone_iff.1 q
        exact (List.prefix_append _ _).trans hn
      · exact fun q => below_child h.wf he q hne
    have hself : (!gone p (children fs p) p || stuck locked fs p) = true := hrest.self
    unfold removeDir lstat
    rw [parts_text a h.good, hst]
    dsimp only
    cases hl : locked p
    · rw [if_neg (by simp [hp])]
      rw [hl, Bool.false_or] at hsp
      cases ha : all
      · rw [if_neg (by rw [hch, ha]; simp)]
        rw [ha] at hsp
        congr 1
        refine Prod.ext ?_ (by simp [hsp])
        apply List.filter_congr
        intro e he
        by_cases q : e.1 = p
        · rw [q, hsp]; simp
        · exact hkeep e he q
      · rw [if_pos ⟨h1.dir, by rw [hch, ha]⟩]
        rw [ha] at hsp
        congr 1
        refine Prod.ext ?_ (by simp [hsp])
        unfold unlink
        dsimp only
        rw [List.filter_filter]
        apply List.filter_congr
        intro e he
        by_cases q : e.1 = p
        · rw [q, hsp]; simp
        · rw [hkeep e he q]; simp [q]
    · rw [if_pos (.inr rfl)]
      rw [hl, Bool.true_or] at hsp
      congr 1
      refine Prod.ext ?_ (by simp [hsp])
      apply List.filter_congr
      intro e he
      by_cases q : e.1 = p
      · rw [q, hsp]; simp
      · exact hkeep e he q

end Verif.DelTree
