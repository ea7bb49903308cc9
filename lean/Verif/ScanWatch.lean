import Verif.Scan
/-
When incoming nzb-files are processed.
-/
namespace Verif.Scan
open CStr FileName Files

/- ## Specification -/

/-- The size of a file in one scan. -/
def sizeIn (n : Bytes) (s : Int × List (Bytes × Int)) : Option Int := (s.2.find? (fun f => f.1 == n)).map (·.2)

/-- The size of a file when it was seen last. -/
def lastSize (h : List (Int × List (Bytes × Int))) (n : Bytes) : Option Int := (h.filterMap (sizeIn n)).getLast?

/-- In each scan the names are different. -/
def Sane (s : Int × List (Bytes × Int)) : Prop := (s.2.map (·.1)).Nodup

/-- The file has not changed for `age` seconds before the time `t`, as far as scans could see: it was there at least
`age` seconds before, and in all scans since then it had the size `z`. -/
def Unchanged (age : Int) (h : List (Int × List (Bytes × Int))) (n : Bytes) (t z : Int) : Prop :=
  ∃ h1 s h2, h = h1 ++ s :: h2 ∧ s.1 + age ≤ t ∧ ∀ q ∈ s :: h2, sizeIn n q = some z

/- ## Lemmas -/

/-- The entry of a file. -/
def entry (l : List FileData) (n : Bytes) : Option FileData := l.find? (fun d => d.name == n)

theorem entry_cons (d : FileData) (l : List FileData) (n : Bytes) :
    entry (d :: l) n = if d.name = n then some d else entry l n := by
  unfold entry
  rw [List.find?_cons]
  by_cases h : d.name = n
  · rw [if_pos h, show (d.name == n) = true by rw [h]; exact beq_self_eq_true n]
  · rw [if_neg h, show (d.name == n) = false by exact beq_false_of_ne h]

theorem entry_name {l : List FileData} {n : Bytes} {d : FileData} (h : entry l n = some d) : d.name = n := by
  have := List.find?_some h
  exact eq_of_beq this

theorem entry_none {l : List FileData} {n : Bytes} : entry l n = none ↔ n ∉ l.map (·.name) := by
  induction l with
  | nil => simp [entry]
  | cons d l ih =>
    rw [entry_cons, List.map_cons, List.mem_cons]
    by_cases h : d.name = n
    · rw [if_pos h]
      exact ⟨(fun h => nomatch h), fun h2 => absurd (Or.inl h.symm) h2⟩
    · rw [if_neg h, ih]
      exact ⟨fun h2 h3 => h3.elim (fun h3 => h h3.symm) h2, fun h2 h3 => h2 (Or.inr h3)⟩

/-- What a scan which sees the file with size `z` does with its entry. -/
def seen (age t : Int) (n : Bytes) (z : Int) : Option FileData → Bool × Option FileData
  | none => (false, some ⟨n, z, t⟩)
  | some d => if d.size = z ∧ t - d.last ≥ age then (true, none) else (false, some { d with size := z })

theorem check_spec (age t : Int) (n : Bytes) (z : Int) (l : List FileData) (hl : (l.map (·.name)).Nodup) :
    ((check age t n z l).1 = (entry l n).isSome) ∧
    (((check age t n z l).2.2.map (·.name)).Sublist (l.map (·.name))) ∧
    (∀ m, m ≠ n → entry (check age t n z l).2.2 m = entry l m) ∧
    ((entry l n).isSome = true → (check age t n z l).2.1 = (seen age t n z (entry l n)).1 ∧
      entry (check age t n z l).2.2 n = (seen age t n z (entry l n)).2) := by
  induction l with
  | nil => exact ⟨rfl, List.Sublist.slnil, fun _ _ => rfl, fun h => nomatch h⟩
  | cons d l ih =>
    rw [List.map_cons, List.nodup_cons] at hl
    have ih := ih hl.2
    rw [entry_cons, check]
    by_cases h : d.name = n
    · rw [if_pos h, if_pos h]
      have hnone : entry l n = none := entry_none.mpr (by rw [← h]; exact hl.1)
      by_cases h2 : d.size = z ∧ t - d.last ≥ age
      · rw [if_pos h2]
        refine ⟨rfl, List.sublist_cons_self _ _, ?_, fun _ => ?_⟩
        · intro m hm
          rw [entry_cons, if_neg (fun e => hm (e.symm.trans h))]
        · unfold seen
          dsimp only
          rw [if_pos h2]
          exact ⟨rfl, hnone⟩
      · rw [if_neg h2]
        dsimp only
        rw [if_neg (show ¬ (z ≠ z) from fun h => h rfl)]
        refine ⟨rfl, ?_, ?_, fun _ => ?_⟩
        · rw [List.map_cons]; exact List.Sublist.refl _
        · intro m hm
          rw [entry_cons, entry_cons, if_neg (fun e => hm (e.symm.trans h)), if_neg (fun e => hm (e.symm.trans h))]
        · unfold seen
          dsimp only
          rw [if_neg h2, entry_cons, if_pos h]
          exact ⟨rfl, rfl⟩
    · rw [if_neg h, if_neg h]
      dsimp only
      refine ⟨ih.1, ?_, ?_, ?_⟩
      · rw [List.map_cons, List.map_cons]; exact ih.2.1.cons_cons _
      · intro m hm
        rw [entry_cons, entry_cons, ih.2.2.1 m hm]
      · intro hs
        obtain ⟨h1, h2⟩ := ih.2.2.2 hs
        refine ⟨h1, ?_⟩
        rw [entry_cons, if_neg h, h2]

theorem entry_append (l : List FileData) (d : FileData) (n : Bytes) :
    entry (l ++ [d]) n = (entry l n).or (if d.name = n then some d else none) := by
  induction l with
  | nil =>
    rw [List.nil_append, entry_cons]
    rfl
  | cons c l ih =>
    rw [List.cons_append, entry_cons, entry_cons, ih]
    by_cases h : c.name = n
    · rw [if_pos h, if_pos h]; rfl
    · rw [if_neg h, if_neg h]

theorem canProcess_spec (age t : Int) (n : Bytes) (z : Int) (l : List FileData) (hl : (l.map (·.name)).Nodup) (hx : excluded n = false) :
    ((canProcess age t true l n z).2.map (·.name)).Nodup ∧
    (∀ m, m ≠ n → entry (canProcess age t true l n z).2 m = entry l m) ∧
    (canProcess age t true l n z).1 = (seen age t n z (entry l n)).1 ∧
    entry (canProcess age t true l n z).2 n = (seen age t n z (entry l n)).2 := by
  obtain ⟨h1, h2, h3, h4⟩ := check_spec age t n z l hl
  unfold canProcess
  rw [hx, if_neg Bool.false_ne_true, if_neg (by simp)]
  dsimp only
  rw [h1]
  cases he : entry l n with
  | none =>
    rw [if_neg (by simp)]
    refine ⟨?_, ?_, rfl, ?_⟩
    · rw [List.map_append, List.nodup_append]
      refine ⟨hl, ?_, ?_⟩
      · simp
      · intro a ha b hb e
        have hb := List.mem_singleton.mp hb
        rw [e, hb] at ha
        exact (entry_none.mp he) ha
    · intro m hm
      rw [entry_append, if_neg (fun e => hm e.symm), Option.or_none]
    · rw [entry_append, if_pos rfl, he]; rfl
  | some d =>
    rw [he] at h4
    simp only [Option.isSome_some, if_true]
    exact ⟨h2.nodup hl, h3, (h4 rfl).1, (h4 rfl).2⟩

theorem canProcess_other (age t : Int) (n : Bytes) (z : Int) (l : List FileData) (hx : excluded n = true) :
    canProcess age t true l n z = (false, l) := by
  unfold canProcess
  rw [hx, if_pos rfl]

theorem sizeIn_cons (n : Bytes) (t : Int) (f : Bytes × Int) (fs : List (Bytes × Int)) :
    sizeIn n (t, f :: fs) = if f.1 = n then some f.2 else sizeIn n (t, fs) := by
  unfold sizeIn
  dsimp only
  rw [List.find?_cons]
  by_cases h : f.1 = n
  · rw [if_pos h, show (f.1 == n) = true by rw [h]; exact beq_self_eq_true n]; rfl
  · rw [if_neg h, show (f.1 == n) = false by exact beq_false_of_ne h]

theorem sizeIn_none {n : Bytes} {t : Int} {fs : List (Bytes × Int)} (h : n ∉ fs.map (·.1)) : sizeIn n (t, fs) = none := by
  induction fs with
  | nil => rfl
  | cons f fs ih =>
    rw [List.map_cons, List.mem_cons] at h
    rw [sizeIn_cons, if_neg (fun e => h (Or.inl e.symm)), ih (fun e => h (Or.inr e))]

/-- What a scan does with the entry of a file. -/
def one (age t : Int) (n : Bytes) (o : Option Int) (e : Option FileData) : Bool × Option FileData :=
  match o with
  | none => (false, e)
  | some z => seen age t n z e

theorem scanLoop_spec (age t : Int) (n : Bytes) (hx : excluded n = false) : ∀ (fs : List (Bytes × Int)) (l : List FileData),
    (l.map (·.name)).Nodup → (fs.map (·.1)).Nodup →
    ((scanLoop age t l fs).2.map (·.name)).Nodup ∧
    (n ∈ (scanLoop age t l fs).1 ↔ (one age t n (sizeIn n (t, fs)) (entry l n)).1 = true) ∧
    entry (scanLoop age t l fs).2 n = (one age t n (sizeIn n (t, fs)) (entry l n)).2 := by
  intro fs
  induction fs with
  | nil => intro l hl _; exact ⟨hl, ⟨(fun h => nomatch h), (fun h => nomatch h)⟩, rfl⟩
  | cons f fs ih =>
    intro l hl hf
    rw [List.map_cons, List.nodup_cons] at hf
    rw [scanLoop]
    dsimp only
    rw [sizeIn_cons]
    by_cases he : excluded f.1 = true
    · rw [canProcess_other age t f.1 f.2 l he]
      dsimp only
      have hne : f.1 ≠ n := fun e => by rw [e, hx] at he; exact nomatch he
      rw [if_neg Bool.false_ne_true, if_neg hne]
      exact ih l hl hf.2
    · have he : excluded f.1 = false := by cases h : excluded f.1 with
        | true => exact absurd h he
        | false => rfl
      obtain ⟨c1, c2, c3, c4⟩ := canProcess_spec age t f.1 f.2 l hl he
      obtain ⟨i1, i2, i3⟩ := ih _ c1 hf.2
      refine ⟨i1, ?_, ?_⟩
      · by_cases hn : f.1 = n
        · rw [if_pos hn]
          rw [hn] at c3 c4 hf
          rw [sizeIn_none hf.1] at i2
          have hno : n ∉ (scanLoop age t (canProcess age t true l f.1 f.2).2 fs).1 := fun h => nomatch (i2.mp h)
          show n ∈ (if (canProcess age t true l f.1 f.2).1 then _ else _) ↔ (seen age t n f.2 (entry l n)).1 = true
          rw [hn, c3]
          cases hs : (seen age t n f.2 (entry l n)).1 with
          | true => rw [if_pos rfl]; exact ⟨fun _ => rfl, fun _ => List.mem_cons_self⟩
          | false =>
            rw [if_neg Bool.false_ne_true]
            rw [hn] at hno
            exact ⟨fun h => absurd h hno, (fun h => nomatch h)⟩
        · rw [if_neg hn]
          rw [c2 n (fun e => hn e.symm)] at i2
          rw [← i2]
          cases (canProcess age t true l f.1 f.2).1 with
          | true =>
            rw [if_pos rfl, List.mem_cons]
            exact ⟨fun h => h.elim (fun e => absurd e.symm hn) id, Or.inr⟩
          | false => rw [if_neg Bool.false_ne_true]
      · by_cases hn : f.1 = n
        · rw [if_pos hn, i3]
          rw [hn] at c4 hf
          rw [sizeIn_none hf.1, hn]
          exact c4
        · rw [if_neg hn, i3, c2 n (fun e => hn e.symm)]

/-- The entry after DropOldFiles. -/
def keep (interval age t : Int) (d : FileData) : Bool := !(decide (t - d.last ≥ (interval + age) * 2) || decide (t < d.last))

theorem entry_drop (interval age t : Int) (n : Bytes) : ∀ (l : List FileData), (l.map (·.name)).Nodup →
    entry (dropOld interval age t l) n = (entry l n).filter (keep interval age t) := by
  intro l
  induction l with
  | nil => intro _; rfl
  | cons d l ih =>
    intro hl
    rw [List.map_cons, List.nodup_cons] at hl
    have ih := ih hl.2
    unfold dropOld at ih ⊢
    rw [List.filter_cons]
    by_cases hk : (!(decide (t - d.last ≥ (interval + age) * 2) || decide (t < d.last))) = true
    · rw [if_pos hk, entry_cons, entry_cons]
      by_cases h : d.name = n
      · rw [if_pos h, if_pos h, Option.filter_some]
        unfold keep
        rw [if_pos hk]
      · rw [if_neg h, if_neg h, ih]
    · rw [if_neg hk, entry_cons]
      by_cases h : d.name = n
      · rw [if_pos h, Option.filter_some]
        unfold keep
        rw [if_neg hk, ih]
        have : entry l n = none := entry_none.mpr (by rw [← h]; exact hl.1)
        rw [this]; rfl
      · rw [if_neg h, ih]

theorem scan_spec (interval age : Int) (n : Bytes) (hx : excluded n = false) (l : List FileData) (s : Int × List (Bytes × Int))
    (hl : (l.map (·.name)).Nodup) (hs : Sane s) :
    ((scan interval age l s).2.map (·.name)).Nodup ∧
    (n ∈ (scan interval age l s).1 ↔ (one age s.1 n (sizeIn n s) (entry l n)).1 = true) ∧
    entry (scan interval age l s).2 n = ((one age s.1 n (sizeIn n s) (entry l n)).2).filter (keep interval age s.1) := by
  obtain ⟨h1, h2, h3⟩ := scanLoop_spec age s.1 n hx s.2 l hl hs
  unfold scan
  dsimp only
  refine ⟨?_, h2, ?_⟩
  · exact (List.filter_sublist.map _).nodup h1
  · rw [entry_drop _ _ _ _ _ h1, h3]

theorem watch_append (interval age : Int) (h1 h2 : List (Int × List (Bytes × Int))) :
    watch interval age (h1 ++ h2) = h2.foldl (fun l s => (scan interval age l s).2) (watch interval age h1) := by
  unfold watch
  rw [List.foldl_append]

theorem lastSize_snoc (h : List (Int × List (Bytes × Int))) (s : Int × List (Bytes × Int)) (n : Bytes) :
    lastSize (h ++ [s]) n = (sizeIn n s).or (lastSize h n) := by
  unfold lastSize
  rw [List.filterMap_append]
  cases hs : sizeIn n s with
  | none => simp [hs]
  | some z => simp [hs]

/- What an entry means. -/
theorem watch_inv (interval age : Int) (n : Bytes) (hx : excluded n = false) : ∀ (k : Nat) (h : List (Int × List (Bytes × Int))),
    h.length = k → (∀ s ∈ h, Sane s) → ((watch interval age h).map (·.name)).Nodup ∧
    ∀ d, entry (watch interval age h) n = some d → lastSize h n = some d.size ∧ ∃ s ∈ h, s.1 = d.last ∧ sizeIn n s ≠ none := by
  intro k
  induction k with
  | zero =>
    intro h hk _
    rw [List.length_eq_zero_iff.mp hk]
    exact ⟨List.nodup_nil, fun d hd => nomatch hd⟩
  | succ k ih =>
    intro h hk hsane
    obtain ⟨h0, s, rfl⟩ : ∃ h0 s, h = h0 ++ [s] := by
      have hne : h ≠ [] := by intro e; rw [e] at hk; exact nomatch hk
      exact ⟨h.dropLast, h.getLast hne, (List.dropLast_concat_getLast hne).symm⟩
    rw [List.length_append, List.length_singleton] at hk
    obtain ⟨i1, i2⟩ := ih h0 (by omega) (fun q hq => hsane q (List.mem_append_left _ hq))
    have hs := hsane s (List.mem_append_right _ (List.mem_singleton.mpr rfl))
    obtain ⟨s1, _, s3⟩ := scan_spec interval age n hx (watch interval age h0) s i1 hs
    rw [watch_append, List.foldl_cons, List.foldl_nil]
    refine ⟨s1, fun d hd => ?_⟩
    rw [s3] at hd
    obtain ⟨hd, _⟩ := Option.filter_eq_some_iff.mp hd
    rw [lastSize_snoc]
    cases hz : sizeIn n s with
    | none =>
      rw [hz] at hd
      obtain ⟨g1, q, hq, g2⟩ := i2 d hd
      exact ⟨g1, q, List.mem_append_left _ hq, g2⟩
    | some z =>
      rw [hz] at hd
      unfold one seen at hd
      dsimp only at hd
      cases he : entry (watch interval age h0) n with
      | none =>
        rw [he] at hd
        cases hd
        refine ⟨rfl, s, List.mem_append_right _ (List.mem_singleton.mpr rfl), rfl, ?_⟩
        rw [hz]; exact fun h => nomatch h
      | some d0 =>
        rw [he] at hd
        dsimp only at hd
        split at hd
        · exact nomatch hd
        · cases hd
          obtain ⟨_, q, hq, g2⟩ := i2 d0 he
          exact ⟨rfl, q, List.mem_append_left _ hq, g2⟩

/- ## Theorems -/

/- **Files which were just seen are not processed** (what is missing: the file may have changed since, see below): a
file is processed only if it was seen at least NzbDirFileAge seconds before, and if it had the same size when it was
seen last. -/
theorem processed_seen_before_partial (interval age : Int) (h : List (Int × List (Bytes × Int))) (s : Int × List (Bytes × Int))
    (hh : ∀ q ∈ h, Sane q) (hs : Sane s) (n : Bytes) (hx : excluded n = false)
    (hp : n ∈ (scan interval age (watch interval age h) s).1) :
    (∃ q ∈ h, q.1 + age ≤ s.1 ∧ sizeIn n q ≠ none) ∧ lastSize h n = sizeIn n s ∧ sizeIn n s ≠ none := by
  obtain ⟨i1, i2⟩ := watch_inv interval age n hx h.length h rfl hh
  obtain ⟨_, s2, _⟩ := scan_spec interval age n hx (watch interval age h) s i1 hs
  have h1 := s2.mp hp
  unfold one at h1
  cases hz : sizeIn n s with
  | none => rw [hz] at h1; exact nomatch h1
  | some z =>
    rw [hz] at h1
    unfold seen at h1
    dsimp only at h1
    cases he : entry (watch interval age h) n with
    | none => rw [he] at h1; exact nomatch h1
    | some d =>
      rw [he] at h1
      dsimp only at h1
      split at h1
      · rename_i hc
        obtain ⟨g1, q, hq, g2, g3⟩ := i2 d he
        refine ⟨⟨q, hq, by omega, g3⟩, ?_, fun h => nomatch h⟩
        rw [g1, hc.1]
      · exact nomatch h1

/- **A file which does not change is processed**: if it appears at the time `t0` with a size and keeps it, it is
processed at the first scan NzbDirFileAge seconds later. -/
theorem unchanged_is_processed (interval age : Int) (hi : 0 ≤ interval) (h h2 : List (Int × List (Bytes × Int)))
    (s0 s : Int × List (Bytes × Int)) (n : Bytes) (z : Int) (hx : excluded n = false)
    (hnew : ∀ q ∈ h, sizeIn n q = none) (hsize : ∀ q ∈ s0 :: (h2 ++ [s]), sizeIn n q = some z)
    (hsane : ∀ q ∈ h ++ s0 :: (h2 ++ [s]), Sane q) (hage : 0 < age)
    (hyoung : ∀ q ∈ h2, s0.1 ≤ q.1 ∧ q.1 < s0.1 + age) (hold : s0.1 + age ≤ s.1) :
    n ∈ (scan interval age (watch interval age (h ++ s0 :: h2)) s).1 := by
  -- after the scans which do not see the file there is no entry
  have hnone : entry (watch interval age h) n = none := by
    cases he : entry (watch interval age h) n with
    | none => rfl
    | some d =>
      obtain ⟨_, i2⟩ := watch_inv interval age n hx h.length h rfl (fun q hq => hsane q (List.mem_append_left _ hq))
      obtain ⟨_, q, hq, _, g⟩ := i2 d he
      exact absurd (hnew q hq) g
  have hnd := (watch_inv interval age n hx h.length h rfl (fun q hq => hsane q (List.mem_append_left _ hq))).1
  have hs0 : Sane s0 := hsane s0 (List.mem_append_right _ List.mem_cons_self)
  obtain ⟨a1, _, a3⟩ := scan_spec interval age n hx (watch interval age h) s0 hnd hs0
  have hk : ∀ t, s0.1 ≤ t → t < s0.1 + age → keep interval age t ⟨n, z, s0.1⟩ = true := by
    intro t h1 h2
    unfold keep
    dsimp only
    rw [decide_eq_false (by omega), decide_eq_false (by omega)]
    rfl
  rw [hnone, hsize s0 List.mem_cons_self] at a3
  have a3 : entry (scan interval age (watch interval age h) s0).2 n = some ⟨n, z, s0.1⟩ := by
    rw [a3]
    show Option.filter _ (some (⟨n, z, s0.1⟩ : FileData)) = _
    rw [Option.filter_some, if_pos (hk s0.1 (by omega) (by omega))]
  -- and then it stays
  have key : ∀ (g : List (Int × List (Bytes × Int))) (l : List FileData), (l.map (·.name)).Nodup → entry l n = some ⟨n, z, s0.1⟩ →
      (∀ q ∈ g, sizeIn n q = some z ∧ Sane q ∧ s0.1 ≤ q.1 ∧ q.1 < s0.1 + age) →
      ((g.foldl (fun l s => (scan interval age l s).2) l).map (·.name)).Nodup ∧
      entry (g.foldl (fun l s => (scan interval age l s).2) l) n = some ⟨n, z, s0.1⟩ := by
    intro g
    induction g with
    | nil => intro l hl he _; exact ⟨hl, he⟩
    | cons q g ih =>
      intro l hl he hg
      obtain ⟨g1, g2, g3, g4⟩ := hg q List.mem_cons_self
      obtain ⟨b1, _, b3⟩ := scan_spec interval age n hx l q hl g2
      rw [List.foldl_cons]
      refine ih _ b1 ?_ (fun r hr => hg r (List.mem_cons_of_mem _ hr))
      rw [b3, g1, he]
      unfold one seen
      dsimp only
      rw [if_neg (by omega), Option.filter_some, if_pos (hk q.1 g3 g4)]
  have hg : ∀ q ∈ h2, sizeIn n q = some z ∧ Sane q ∧ s0.1 ≤ q.1 ∧ q.1 < s0.1 + age := fun q hq =>
    ⟨hsize q (List.mem_cons_of_mem _ (List.mem_append_left _ hq)),
      hsane q (List.mem_append_right _ (List.mem_cons_of_mem _ (List.mem_append_left _ hq))), hyoung q hq⟩
  obtain ⟨c1, c2⟩ := key h2 _ a1 a3 hg
  have hw : watch interval age (h ++ s0 :: h2) = h2.foldl (fun l s => (scan interval age l s).2) (scan interval age (watch interval age h) s0).2 := by
    rw [watch_append, List.foldl_cons]
  rw [← hw] at c1 c2
  have hmem : s ∈ s0 :: (h2 ++ [s]) := List.mem_cons_of_mem _ (List.mem_append_right _ (List.mem_singleton.mpr rfl))
  obtain ⟨_, d2, _⟩ := scan_spec interval age n hx (watch interval age (h ++ s0 :: h2)) s c1 (hsane s (List.mem_append_right _ hmem))
  rw [d2, hsize s hmem, c2]
  unfold one seen
  dsimp only
  rw [if_pos ⟨rfl, by omega⟩]

/- A scan each five seconds, the file is complete at the begin. -/
def quiet : List (Int × List (Bytes × Int)) := [(0, []), (5, [(lit "a.nzb", 10), (lit "b.txt", 3)]), (10, [(lit "a.nzb", 10)]), (60, [(lit "a.nzb", 10)])]

example : lit "a.nzb" ∈ (scan 5 60 (watch 5 60 ([(0, [])] ++ (5, [(lit "a.nzb", 10), (lit "b.txt", 3)]) :: [(10, [(lit "a.nzb", 10)]), (60, [(lit "a.nzb", 10)])])) (65, [(lit "a.nzb", 10)])).1 :=
  unchanged_is_processed 5 60 (by decide) _ _ _ _ (lit "a.nzb") 10 (by decide +kernel) (by decide) (by decide +kernel)
    (by unfold Sane; decide +kernel) (by decide) (by decide) (by decide)

example : (∃ q ∈ quiet, q.1 + 60 ≤ 65 ∧ sizeIn (lit "a.nzb") q ≠ none) ∧ lastSize quiet (lit "a.nzb") = some 10 ∧ some 10 ≠ (none : Option Int) :=
  processed_seen_before_partial 5 60 quiet (65, [(lit "a.nzb", 10)]) (by unfold Sane; decide +kernel) (by unfold Sane; decide +kernel)
    (lit "a.nzb") (by decide +kernel) (by decide +kernel)

/- **Files which change are processed**: the time of the last change is never updated (the size is compared after it was
set). A file which grows for a minute is processed as soon as two scans in a row, five seconds apart, see the same
size; with an age of sixty seconds it had to rest for sixty. -/
theorem changed_is_processed : ∃ (h : List (Int × List (Bytes × Int))) (s : Int × List (Bytes × Int)) (n : Bytes) (z : Int),
    (∀ q ∈ h, Sane q) ∧ Sane s ∧ excluded n = false ∧ sizeIn n s = some z ∧
    n ∈ (scan 5 60 (watch 5 60 h) s).1 ∧ ¬ Unchanged 60 h n s.1 z := by
  refine ⟨[(0, [(lit "a.nzb", 10)]), (55, [(lit "a.nzb", 90)])], (60, [(lit "a.nzb", 90)]), lit "a.nzb", 90,
    by unfold Sane; decide +kernel, by unfold Sane; decide +kernel, by decide +kernel, by decide +kernel, by decide +kernel, ?_⟩
  rintro ⟨h1, s, h2, he, ht, hq⟩
  match h1, he with
  | [], he =>
    rw [List.nil_append] at he
    have e := (List.cons.inj he).1
    have := hq s List.mem_cons_self
    rw [← e] at this
    exact absurd this (by decide +kernel)
  | [_], he =>
    have e := (List.cons.inj (List.cons.inj he).2).1
    rw [← e] at ht
    exact absurd ht (by decide)
  | a :: b :: l, he =>
    have h3 := (List.cons.inj (List.cons.inj he).2).2
    have h3 : ([] : List (Int × List (Bytes × Int))) = l ++ s :: h2 := h3
    have := congrArg List.length h3
    rw [List.length_append, List.length_cons, List.length_nil] at this
    omega

end Verif.Scan
