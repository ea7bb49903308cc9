import Verif.HistoryRetry

/-
What "retry failed articles" and "download remaining files" do with a download in the history: what is downloaded again, what is kept,
and what the totals of the download say afterwards.
-/
namespace Verif.HistoryRetry

/-! ### Specification -/

/-- The size of all articles with a status. -/
def sizeOf (s : AStatus) (l : List Article) : Int := (l.map fun a => if a.status = s then a.size else 0).sum

/-- The number of articles with a status. -/
def numberOf (s : AStatus) (l : List Article) : Int := ((l.filter fun a => a.status = s).length : Int)

/-- The counters of a file agree with a list of articles. -/
structure Describes (f : File) (l : List Article) : Prop where
  remaining : f.remaining = sizeOf .undefined l
  success : f.success = sizeOf .finished l
  failed : f.failed = sizeOf .failed l
  successArticles : f.successArticles = numberOf .finished l
  failedArticles : f.failedArticles = numberOf .failed l
  completedArticles : f.completedArticles = numberOf .finished l + numberOf .failed l

/-- What is stored about an ended file agrees with itself: the sizes of the articles, and the counters of a partly downloaded file. -/
structure Sound (d : Disk) (c : Completed) (x : Data) : Prop where
  data : d.data c.id = some x
  size : x.size - x.missed = x.sizes.sum
  total : x.total - x.missedArticles = x.sizes.length
  state : c.status = .partly → ∃ s l, d.state c.id = some s ∧ s.entries.length = x.sizes.length ∧
    applyEntries (x.sizes.map Article.new) s.entries = some l ∧
    s.remaining = sizeOf .undefined l ∧ s.success = sizeOf .finished l ∧ s.failed = sizeOf .failed l ∧
    s.successArticles = numberOf .finished l ∧ s.failedArticles = numberOf .failed l

/-- The articles of an ended file, as they were when it ended: of a file which failed all have failed, of one which was not begun none
was tried, and of a partly downloaded file they are stored. -/
def recorded (d : Disk) (c : Completed) : List Article :=
  match d.data c.id with
  | none => []
  | some x =>
    match c.status with
    | .failure => x.sizes.map fun z => { Article.new z with status := .failed }
    | .partly =>
      match d.state c.id with
      | none => []
      | some s => (applyEntries (x.sizes.map Article.new) s.entries).getD []
    | _ => x.sizes.map Article.new

/-- The par2-flag of an ended file. -/
def parOf (d : Disk) (c : Completed) : Bool :=
  match d.data c.id with
  | none => false
  | some x =>
    match c.status with
    | .partly => match d.state c.id with | none => x.par | some s => s.par
    | _ => x.par

/-- The downloaded part of a file is on disk: it is not empty. -/
def Present (d : Disk) (c : Completed) : Prop := ∃ k, d.out c.name = some k ∧ k > 0

/-- Some article of the file was downloaded, and what was downloaded is on disk. -/
def Kept (d : Disk) (c : Completed) : Prop := (∃ a ∈ recorded d c, a.status = .finished) ∧ Present d c

open Classical in
/-- What is expected of the articles of a file which goes back to the queue: what was downloaded is kept if it is on disk; what failed is
kept as failed only if failed articles are not to be retried and something was kept; everything else is as if it had never been tried. -/
noncomputable def renewed (rf : Bool) (d : Disk) (c : Completed) : List Article :=
  (recorded d c).map fun a => if Kept d c ∧ ¬(a.status = .failed ∧ rf = true) then a else Article.new a.size

/-- Which ended files go back to the queue: those which were not begun; those which failed or ended with failed articles, if failed
articles are to be retried; and those of which something was not tried. -/
def Wanted (rf : Bool) (d : Disk) (c : Completed) : Prop :=
  c.status = .none ∨ (c.status = .failure ∧ rf = true) ∨
  (c.status = .partly ∧ (rf = true ∨ sizeOf .undefined (recorded d c) > 0))

/-- Totals from which the articles of a file are taken away. -/
def Totals.without (t : Totals) (par : Bool) (l : List Article) : Totals :=
  { success := t.success - sizeOf .finished l, failed := t.failed - sizeOf .failed l,
    successArticles := t.successArticles - numberOf .finished l, failedArticles := t.failedArticles - numberOf .failed l,
    parSuccess := if par then t.parSuccess - sizeOf .finished l else t.parSuccess,
    parFailed := if par then t.parFailed - sizeOf .failed l else t.parFailed }

/-- Totals to which the articles of a file are added. -/
def Totals.with (t : Totals) (par : Bool) (l : List Article) : Totals :=
  { success := t.success + sizeOf .finished l, failed := t.failed + sizeOf .failed l,
    successArticles := t.successArticles + numberOf .finished l, failedArticles := t.failedArticles + numberOf .failed l,
    parSuccess := if par then t.parSuccess + sizeOf .finished l else t.parSuccess,
    parFailed := if par then t.parFailed + sizeOf .failed l else t.parFailed }

/-! ### Sums -/

theorem sizeOf_nil (s : AStatus) : sizeOf s [] = 0 := rfl

theorem sizeOf_cons (s : AStatus) (a : Article) (l : List Article) :
    sizeOf s (a :: l) = (if a.status = s then a.size else 0) + sizeOf s l := by
  simp only [sizeOf, List.map_cons, List.sum_cons]

theorem numberOf_nil (s : AStatus) : numberOf s [] = 0 := rfl

theorem numberOf_cons (s : AStatus) (a : Article) (l : List Article) :
    numberOf s (a :: l) = (if a.status = s then 1 else 0) + numberOf s l := by
  simp only [numberOf, List.filter_cons]
  by_cases h : a.status = s
  · simp only [h, decide_true, if_pos, List.length_cons]; omega
  · simp only [h, decide_false, if_false, Bool.false_eq_true]; omega

theorem numberOf_nonneg (s : AStatus) (l : List Article) : 0 ≤ numberOf s l := by simp only [numberOf]; omega

theorem numberOf_pos {s : AStatus} {l : List Article} : numberOf s l > 0 ↔ ∃ a ∈ l, a.status = s := by
  induction l with
  | nil => simp [numberOf_nil]
  | cons a l ih =>
    rw [numberOf_cons]
    have := numberOf_nonneg s l
    constructor
    · intro h
      by_cases ha : a.status = s
      · exact ⟨a, .head _, ha⟩
      · rw [if_neg ha] at h
        obtain ⟨b, hb, e⟩ := ih.mp (by omega)
        exact ⟨b, .tail _ hb, e⟩
    · rintro ⟨b, hb, e⟩
      rcases List.mem_cons.mp hb with rfl | hb
      · rw [if_pos e]; omega
      · have := ih.mpr ⟨b, hb, e⟩
        split <;> omega

/-! ### The reset of articles -/


theorem sizeOf_new (s : AStatus) (l : List Int) :
    sizeOf s (l.map Article.new) = if s = .undefined then l.sum else 0 := by
  induction l with
  | nil => cases s <;> rfl
  | cons a l ih =>
    rw [List.map_cons, sizeOf_cons, ih, List.sum_cons]
    cases s <;> simp [Article.new]

theorem numberOf_new (s : AStatus) (l : List Int) :
    numberOf s (l.map Article.new) = if s = .undefined then (l.length : Int) else 0 := by
  induction l with
  | nil => cases s <;> rfl
  | cons a l ih =>
    rw [List.map_cons, numberOf_cons, ih, List.length_cons]
    cases s <;> simp [Article.new]; omega

theorem sizeOf_failed (s : AStatus) (l : List Int) :
    sizeOf s (l.map fun z => { Article.new z with status := .failed }) = if s = .failed then l.sum else 0 := by
  induction l with
  | nil => cases s <;> rfl
  | cons a l ih =>
    rw [List.map_cons, sizeOf_cons, ih, List.sum_cons]
    cases s <;> simp [Article.new]

theorem numberOf_failed (s : AStatus) (l : List Int) :
    numberOf s (l.map fun z => { Article.new z with status := .failed }) = if s = .failed then (l.length : Int) else 0 := by
  induction l with
  | nil => cases s <;> rfl
  | cons a l ih =>
    rw [List.map_cons, numberOf_cons, ih, List.length_cons]
    cases s <;> simp; omega

/-! ### The reset of articles -/

/-- What the reset never changes. -/
theorem uncountAll_same (part : Part) (af rf : Bool) (l : List Article) (f : File) :
    (uncountAll part af rf f l).id = f.id ∧ (uncountAll part af rf f l).name = f.name ∧ (uncountAll part af rf f l).par = f.par ∧
    (uncountAll part af rf f l).part = f.part := by
  induction l generalizing f with
  | nil => exact ⟨rfl, rfl, rfl, rfl⟩
  | cons a l ih =>
    simp only [uncountAll]
    obtain ⟨h1, h2, h3, h4⟩ := ih (if mustReset part af rf a then uncount f a else f)
    rw [h1, h2, h3, h4]
    by_cases h : mustReset part af rf a = true
    · rw [if_pos h]; unfold uncount; dsimp only; split <;> exact ⟨rfl, rfl, rfl, rfl⟩
    · rw [if_neg h]; exact ⟨rfl, rfl, rfl, rfl⟩

/-- The counters after the reset of a file which did not fail completely. -/
theorem uncountAll_some (part : Part) (rf : Bool) (l : List Article) (f : File) :
    let g := uncountAll part false rf f l
    let m := l.map (resetArticle part false rf)
    g.remaining = f.remaining + sizeOf .undefined m - sizeOf .undefined l ∧
    g.success = f.success + sizeOf .finished m - sizeOf .finished l ∧
    g.failed = f.failed + sizeOf .failed m - sizeOf .failed l ∧
    g.successArticles = f.successArticles + numberOf .finished m - numberOf .finished l ∧
    g.failedArticles = f.failedArticles + numberOf .failed m - numberOf .failed l ∧
    g.completedArticles = f.completedArticles + (numberOf .finished m + numberOf .failed m) - (numberOf .finished l + numberOf .failed l) := by
  induction l generalizing f with
  | nil => simp [uncountAll, sizeOf_nil, numberOf_nil]
  | cons a l ih =>
    simp only [uncountAll, List.map_cons, sizeOf_cons, numberOf_cons]
    have := ih (if mustReset part false rf a then uncount f a else f)
    dsimp only at this
    obtain ⟨h1, h2, h3, h4, h5, h6⟩ := this
    rw [h1, h2, h3, h4, h5, h6]
    by_cases h : mustReset part false rf a = true
    · simp only [resetArticle, if_pos h]
      have hs : a.status ≠ .undefined := by
        intro e; simp [mustReset, e] at h
      cases hst : a.status with
      | undefined => exact absurd hst hs
      | finished => simp [uncount, hst]; omega
      | failed => simp [uncount, hst]; omega
    · simp only [resetArticle, if_neg h]
      omega

/-- The counters after the reset of a file which failed completely. -/
theorem uncountAll_all (part : Part) (l : List Article) (f : File) (hu : ∀ a ∈ l, a.status = .undefined) :
    let g := uncountAll part true true f l
    g.remaining = f.remaining + sizeOf .undefined l ∧ g.success = f.success ∧ g.failed = f.failed - sizeOf .undefined l ∧
    g.successArticles = f.successArticles ∧ g.failedArticles = f.failedArticles - numberOf .undefined l ∧
    g.completedArticles = f.completedArticles - numberOf .undefined l := by
  induction l generalizing f with
  | nil => simp [uncountAll, sizeOf_nil, numberOf_nil]
  | cons a l ih =>
    have ha := hu a (.head _)
    have h : mustReset part true true a = true := by simp [mustReset, ha]
    simp only [uncountAll, sizeOf_cons, numberOf_cons, if_pos h, if_pos ha]
    have := ih (uncount f a) fun b hb => hu b (.tail _ hb)
    dsimp only at this
    obtain ⟨h1, h2, h3, h4, h5, h6⟩ := this
    rw [h1, h2, h3, h4, h5, h6]
    simp [uncount, ha]; omega

/-! ### Stored states -/

theorem applyEntries_sizes {l : List Article} {es : List Entry} {r : List Article} (h : applyEntries l es = some r) :
    r.map Article.size = l.map Article.size := by
  induction l generalizing es r with
  | nil => cases es with
    | nil => cases h; rfl
    | cons => cases h
  | cons a l ih => cases es with
    | nil => cases h; rfl
    | cons e es =>
      simp only [applyEntries] at h
      split at h
      · cases h
      · next r' hr => cases h; simp only [List.map_cons, ih hr]

theorem sizes_new (l : List Int) : (l.map Article.new).map Article.size = l := by
  induction l with
  | nil => rfl
  | cons a l ih => simp only [List.map_cons, ih]; rfl

/-- A stored state gives back the articles. -/
theorem applyEntries_stateOf (l : List Article) :
    applyEntries ((l.map Article.size).map Article.new) (l.map fun a => ⟨a.status, a.offset, a.segment, a.crc⟩) = some l := by
  induction l with
  | nil => rfl
  | cons a l ih => simp only [List.map_cons, applyEntries, ih]; rfl

theorem tried_stateOf (l : List Article) :
    tried (l.map fun a => ⟨a.status, a.offset, a.segment, a.crc⟩) = numberOf .finished l + numberOf .failed l := by
  induction l with
  | nil => rfl
  | cons a l ih =>
    simp only [List.map_cons, tried, ih, numberOf_cons]
    cases a.status <;> simp <;> omega

theorem tried_apply {l : List Article} {es : List Entry} {r : List Article} (h : applyEntries l es = some r)
    (hl : es.length = l.length) : tried es = numberOf .finished r + numberOf .failed r := by
  induction l generalizing es r with
  | nil => cases es with
    | nil => cases h; rfl
    | cons => cases h
  | cons a l ih => cases es with
    | nil => cases hl
    | cons e es =>
      simp only [applyEntries] at h
      split at h
      · cases h
      · next r' hr =>
        cases h
        simp only [tried, ih hr (by simpa using hl), numberOf_cons]
        cases e.status <;> simp <;> omega

/-! ### A file goes back to the queue -/

/-- What is loaded of a file which is wanted. -/
theorem pick_spec {rf : Bool} {d : Disk} {c : Completed} {x : Data} (S : Sound d c x) (hid : c.id > 0) :
    (Wanted rf d c → ∃ f, pick rf d c = some f) ∧
    (∀ f, pick rf d c = some f → Wanted rf d c ∧ f.id = c.id ∧ f.name = c.name ∧ f.par = parOf d c ∧ f.part = .none ∧
      (c.status ≠ .failure → f.articles = recorded d c ∧ Describes f (recorded d c)) ∧
      (c.status = .failure → rf = true ∧ f.articles = x.sizes.map Article.new ∧ f.size = x.size ∧ f.missed = x.missed ∧
        f.total = x.total ∧ f.missedArticles = x.missedArticles ∧ f.success = 0 ∧ f.successArticles = 0)) := by
  cases hs : c.status with
  | success =>
    refine ⟨fun w => ?_, fun f h => ?_⟩
    · simp [Wanted, hs] at w
    · simp [pick, hs] at h
  | none =>
    refine ⟨fun _ => ?_, fun f h => ?_⟩
    · simp [pick, hs, hid, loadFile, S.data]
    · simp only [pick, hs, loadFile, S.data] at h
      simp only [ne_eq, reduceCtorEq, not_false_eq_true, true_or, hid, and_self, if_true, Option.some.injEq] at h
      subst h
      refine ⟨.inl hs, rfl, rfl, ?_, rfl, fun _ => ⟨?_, ?_⟩, fun e => nomatch e⟩
      · simp [parOf, S.data, hs]
      · simp [recorded, S.data, hs]
      · have : recorded d c = x.sizes.map Article.new := by simp [recorded, S.data, hs]
        rw [this]
        constructor <;> simp [sizeOf_new, numberOf_new, S.size]
  | failure =>
    refine ⟨fun w => ?_, fun f h => ?_⟩
    · simp only [Wanted, hs, reduceCtorEq, false_and, or_false, false_or, true_and] at w
      simp [pick, hs, hid, loadFile, S.data, w]
    · simp only [pick, hs, loadFile, S.data] at h
      split at h
      · next hc =>
        have hrf : rf = true := by
          rcases hc.2.1 with e | e
          · exact absurd rfl e
          · exact e
        cases h
        refine ⟨.inr (.inl ⟨hs, hrf⟩), rfl, rfl, ?_, rfl, fun e => absurd rfl e, fun _ => ⟨hrf, rfl, rfl, rfl, rfl, rfl, rfl, rfl⟩⟩
        simp [parOf, S.data, hs]
      · cases h
  | partly =>
    obtain ⟨s, l, h1, h2, h3, h4, h5, h6, h7, h8⟩ := S.state hs
    have hr : recorded d c = l := by simp [recorded, S.data, hs, h1, h3]
    refine ⟨fun w => ?_, fun f h => ?_⟩
    · simp only [Wanted, hs, reduceCtorEq, false_and, false_or, true_and, hr] at w
      rw [← h4] at w
      simp only [pick, hs, hid, loadFile, S.data, loadState, h1, h3]
      simp [w]
    · simp only [pick, hs, hid, loadFile, S.data, loadState, h1, h3] at h
      simp only [ne_eq, reduceCtorEq, not_false_eq_true, true_or, and_self, if_true] at h
      split at h
      · next hw =>
        cases h
        refine ⟨.inr (.inr ⟨hs, ?_⟩), rfl, rfl, ?_, rfl, fun _ => ⟨hr.symm, ?_⟩, fun e => nomatch e⟩
        · rw [hr, ← h4]; exact hw
        · simp [parOf, S.data, hs, h1]
        · rw [hr]
          exact ⟨h4, h5, h6, h7, h8, tried_apply h3 (by simpa using h2)⟩
      · cases h

/-- The number of downloaded articles which a file is loaded with. -/
theorem picked_finished {rf : Bool} {d : Disk} {c : Completed} {x : Data} (S : Sound d c x) (hid : c.id > 0) {f : File}
    (P : pick rf d c = some f) : f.successArticles = numberOf .finished (recorded d c) := by
  obtain ⟨_, _, _, _, _, hn, hf⟩ := (pick_spec S hid).2 f P
  by_cases h : c.status = .failure
  · obtain ⟨_, _, _, _, _, _, _, e⟩ := hf h
    rw [e]
    simp [recorded, S.data, h, numberOf_failed]
  · exact (hn h).2.successArticles

/-- Whether something of the file is kept, and what happens to the file in the destination directory. -/
theorem drop_spec {rf : Bool} {d : Disk} {c : Completed} {x : Data} (S : Sound d c x) (hid : c.id > 0) {f : File}
    (P : pick rf d c = some f) :
    (Kept d c → dropOut d f = d ∧ partOf (dropOut d f) f = .completed) ∧
    (¬Kept d c → dropOut d f = { d with out := set d.out c.name none } ∧ partOf (dropOut d f) f = .none) := by
  obtain ⟨_, _, hname, _, hpart, _⟩ := (pick_spec S hid).2 f P
  have hsucc := picked_finished S hid P
  have hpos : f.successArticles > 0 ↔ ∃ a ∈ recorded d c, a.status = .finished := by rw [hsucc]; exact numberOf_pos
  have hnn : 0 ≤ f.successArticles := by rw [hsucc]; exact numberOf_nonneg _ _
  constructor
  · rintro ⟨h1, k, h2, h3⟩
    have h4 := hpos.mpr h1
    have hd : dropOut d f = d := by
      unfold dropOut
      rw [if_neg]
      rintro (h | h)
      · omega
      · rw [hname, h2] at h; cases h; omega
    rw [hd]
    refine ⟨rfl, ?_⟩
    unfold partOf
    rw [if_pos h4, hname, h2]; rfl
  · intro hk
    have hout : f.successArticles > 0 → (d.out c.name = none ∨ d.out c.name = some 0) := by
      intro h
      cases ho : d.out c.name with
      | none => exact .inl rfl
      | some k =>
        by_cases hk0 : k = 0
        · rw [hk0]; exact .inr rfl
        · exact absurd ⟨hpos.mp h, k, ho, by omega⟩ hk
    have hd : dropOut d f = { d with out := set d.out c.name none } := by
      unfold dropOut
      split
      · rw [hname]
      · next h =>
        have h5 : f.successArticles > 0 := by
          rcases Int.lt_or_eq_of_le hnn with h' | h'
          · exact h'
          · exact absurd (.inl h'.symm) h
        rcases hout h5 with e | e
        · have : set d.out c.name none = d.out := by
            funext y; unfold set; split
            · next e' => rw [e', e]
            · rfl
          rw [this]
        · exact absurd (.inr (by rw [hname]; exact e)) h
    rw [hd]
    refine ⟨rfl, ?_⟩
    unfold partOf
    split
    · rw [hname]; simp [set]
    · exact hpart

/-- The reset of a file of which something is kept. -/
theorem reset_kept {rf : Bool} {d : Disk} {c : Completed} (hk : Kept d c) :
    (recorded d c).map (resetArticle .completed false rf) = renewed rf d c := by
  unfold renewed
  apply List.map_congr_left
  intro a _
  unfold resetArticle mustReset
  cases ha : a.status <;> cases rf <;> simp [hk, Article.new]

/-- The reset of a file of which nothing is kept: nothing but the sizes matters. -/
theorem renewed_none {rf : Bool} {d : Disk} {c : Completed} (hk : ¬Kept d c) :
    renewed rf d c = ((recorded d c).map Article.size).map Article.new := by
  unfold renewed
  rw [List.map_map]
  apply List.map_congr_left
  intro a _
  simp [hk]

theorem recorded_sizes {d : Disk} {c : Completed} {x : Data} (S : Sound d c x) : (recorded d c).map Article.size = x.sizes := by
  unfold recorded
  rw [S.data]
  dsimp only
  cases hs : c.status with
  | partly =>
    obtain ⟨s, l, h1, h2, h3, _⟩ := S.state hs
    rw [h1]; dsimp only; rw [h3, Option.getD_some, applyEntries_sizes h3, sizes_new]
  | failure =>
    dsimp only
    rw [List.map_map]
    conv => rhs; rw [← List.map_id x.sizes]
    rfl
  | none => exact sizes_new _
  | success => exact sizes_new _

/-- After a reset without a kept part every article counts as untried. -/
theorem reset_lost (rf : Bool) (l : List Article) :
    (∀ a ∈ l.map (resetArticle .none false rf), a.status = .undefined) ∧
    (l.map (resetArticle .none false rf)).map Article.size = l.map Article.size := by
  constructor
  · intro a ha
    obtain ⟨b, _, rfl⟩ := List.mem_map.mp ha
    unfold resetArticle mustReset
    cases hb : b.status <;> simp [hb]
  · rw [List.map_map]
    apply List.map_congr_left
    intro a _
    simp only [Function.comp, resetArticle]
    split <;> rfl

theorem untried_sums {l : List Article} (h : ∀ a ∈ l, a.status = .undefined) (s : AStatus) :
    sizeOf s l = (if s = .undefined then (l.map Article.size).sum else 0) ∧
    numberOf s l = (if s = .undefined then (l.length : Int) else 0) := by
  induction l with
  | nil => cases s <;> exact ⟨rfl, rfl⟩
  | cons a l ih =>
    obtain ⟨h1, h2⟩ := ih fun b hb => h b (.tail _ hb)
    rw [sizeOf_cons, numberOf_cons, h1, h2, h a (.head _), List.map_cons, List.sum_cons, List.length_cons]
    cases s <;> simp <;> omega

/-- The counters and articles after the reset. -/
theorem reset_spec {rf : Bool} {d : Disk} {c : Completed} {x : Data} (S : Sound d c x) (hid : c.id > 0) {f : File}
    (P : pick rf d c = some f) (t : Totals) :
    let r := resetArticles t { f with part := partOf (dropOut d f) f } (c.status == .failure) rf
    r.1 = t.without (parOf d c) (recorded d c) ∧ r.2.id = c.id ∧ r.2.name = c.name ∧ r.2.par = parOf d c ∧
    (Kept d c → r.2.part = .completed ∧ r.2.articles = renewed rf d c) ∧ (¬Kept d c → r.2.part = .none) ∧
    Describes r.2 (renewed rf d c) := by
  obtain ⟨hw, hi, hname, hpar, hpart, hn, hf⟩ := (pick_spec S hid).2 f P
  obtain ⟨dk, dn⟩ := drop_spec S hid P
  by_cases hs : c.status = .failure
  · obtain ⟨hrf, h1, h2, h3, h4, h5, h6, h7⟩ := hf hs
    have hrec : recorded d c = x.sizes.map fun z => { Article.new z with status := .failed } := by simp [recorded, S.data, hs]
    have hk : ¬Kept d c := by
      rintro ⟨⟨a, ha, e⟩, _⟩
      rw [hrec] at ha
      obtain ⟨z, _, rfl⟩ := List.mem_map.mp ha
      cases e
    obtain ⟨_, hp⟩ := dn hk
    subst hrf
    rw [hp, hs]
    dsimp only
    unfold resetArticles
    simp only [beq_self_eq_true, if_true]
    have hu : ∀ a ∈ f.articles, a.status = .undefined := by
      rw [h1]; intro a ha; obtain ⟨z, _, rfl⟩ := List.mem_map.mp ha; rfl
    have hall := uncountAll_all (markFailed { f with part := .none }).part f.articles (markFailed { f with part := .none }) hu
    have hsame := uncountAll_same (markFailed { f with part := .none }).part true true f.articles (markFailed { f with part := .none })
    obtain ⟨s1, s2, s3, s4⟩ := hsame
    dsimp only at hall
    obtain ⟨a1, a2, a3, a4, a5, a6⟩ := hall
    have hsz : sizeOf .undefined f.articles = x.sizes.sum := by rw [h1, sizeOf_new]; rfl
    have hnu : numberOf .undefined f.articles = x.sizes.length := by rw [h1, numberOf_new]; rfl
    rw [hsz] at a1 a3
    rw [hnu] at a5 a6
    have e1 := S.size
    have e2 := S.total
    have hren : renewed true d c = x.sizes.map Article.new := by rw [renewed_none hk, recorded_sizes S]
    refine ⟨?_, by rw [← hi]; exact s1, by rw [← hname]; exact s2, by rw [← hpar]; exact s3, fun k => absurd k hk, fun _ => s4, ?_⟩
    · rw [hrec, ← hpar]
      simp [Totals.sub, Totals.without, markFailed, sizeOf_failed, numberOf_failed, h2, h3, h4, h5, h6, h7, e1, e2]
    · rw [hren]
      constructor
      · dsimp only; rw [sizeOf_new]; simp only [if_true]; exact a1.trans (by simp [markFailed])
      · dsimp only; rw [sizeOf_new]; exact a2.trans (by simp [markFailed, h6])
      · dsimp only; rw [sizeOf_new]; exact a3.trans (by simp [markFailed, h2, h3]; omega)
      · dsimp only; rw [numberOf_new]; exact a4.trans (by simp [markFailed, h7])
      · dsimp only; rw [numberOf_new]; exact a5.trans (by simp [markFailed, h4, h5]; omega)
      · dsimp only; rw [numberOf_new, numberOf_new]; exact a6.trans (by simp [markFailed, h4, h5]; omega)
  · obtain ⟨h1, h2⟩ := hn hs
    have hb : (c.status == .failure) = false := by cases hc : c.status <;> simp_all
    rw [hb]
    dsimp only
    unfold resetArticles
    simp only [Bool.false_eq_true, if_false]
    have hsome := uncountAll_some (partOf (dropOut d f) f) rf f.articles { f with part := partOf (dropOut d f) f }
    obtain ⟨s1, s2, s3, s4⟩ := uncountAll_same (partOf (dropOut d f) f) false rf f.articles { f with part := partOf (dropOut d f) f }
    dsimp only at hsome
    obtain ⟨a1, a2, a3, a4, a5, a6⟩ := hsome
    rw [h1] at *
    obtain ⟨b1, b2, b3, b4, b5, b6⟩ := h2
    refine ⟨?_, by rw [← hi]; exact s1, by rw [← hname]; exact s2, by rw [← hpar]; exact s3, fun k => ?_, fun k => ?_, ?_⟩
    · rw [← hpar]
      simp only [Totals.sub, Totals.without, b2, b3, b4, b5]
    · obtain ⟨_, hp⟩ := dk k
      refine ⟨s4.trans hp, ?_⟩
      rw [hp]
      exact reset_kept k
    · exact s4.trans (dn k).2
    · by_cases k : Kept d c
      · obtain ⟨_, hp⟩ := dk k
        have hr := reset_kept (rf := rf) k
        rw [hp] at a1 a2 a3 a4 a5 a6 ⊢
        rw [hr] at a1 a2 a3 a4 a5 a6
        constructor <;> dsimp only <;> omega
      · obtain ⟨_, hp⟩ := dn k
        rw [hp] at a1 a2 a3 a4 a5 a6 ⊢
        obtain ⟨l1, l2⟩ := reset_lost rf (recorded d c)
        have hlen : ((recorded d c).map (resetArticle .none false rf)).length = x.sizes.length := by
          rw [List.length_map, ← recorded_sizes S, List.length_map]
        have hu := untried_sums l1
        rw [l2, recorded_sizes S, hlen] at hu
        have hun := hu .undefined
        have hfi := hu .finished
        have hfa := hu .failed
        simp only [if_true] at hun
        simp only [reduceCtorEq, if_false] at hfi hfa
        rw [hun.1] at a1
        rw [hfi.1] at a2
        rw [hfa.1] at a3
        rw [hfi.2] at a4
        rw [hfa.2] at a5
        rw [hfi.2, hfa.2] at a6
        rw [renewed_none k, recorded_sizes S]
        constructor
        · dsimp only; rw [sizeOf_new]; simp only [if_true]; omega
        · dsimp only; rw [sizeOf_new]; simp only [reduceCtorEq, if_false]; omega
        · dsimp only; rw [sizeOf_new]; simp only [reduceCtorEq, if_false]; omega
        · dsimp only; rw [numberOf_new]; simp only [reduceCtorEq, if_false]; omega
        · dsimp only; rw [numberOf_new]; simp only [reduceCtorEq, if_false]; omega
        · dsimp only; rw [numberOf_new, numberOf_new]; simp only [reduceCtorEq, if_false]; omega

/-- A file which goes back to the queue: its counters, what it is loaded with later, the disk and the totals. -/
theorem unpark_spec {rf : Bool} {d : Disk} {c : Completed} {x : Data} (S : Sound d c x) (hid : c.id > 0) {f : File}
    (P : pick rf d c = some f) (t : Totals) :
    let u := unpark rf d t c f
    u.2.1 = t.without (parOf d c) (recorded d c) ∧ u.2.2.id = c.id ∧ u.2.2.name = c.name ∧ u.2.2.par = parOf d c ∧
    Describes u.2.2 (renewed rf d c) ∧
    u.1.data = d.data ∧ (∀ i, i ≠ c.id → u.1.state i = d.state i) ∧
    (Kept d c → u.1.out = d.out) ∧ (¬Kept d c → u.1.out = set d.out c.name none) ∧
    (∀ d', d'.data c.id = d.data c.id → d'.state c.id = u.1.state c.id →
      (loadArticles d' u.2.2).articles = renewed rf d c ∧ Describes (loadArticles d' u.2.2) (renewed rf d c)) := by
  obtain ⟨dk, dn⟩ := drop_spec S hid P
  have hreset := reset_spec S hid P t
  dsimp only at hreset
  unfold unpark
  dsimp only
  generalize resetArticles t { f with part := partOf (dropOut d f) f } (c.status == .failure) rf = r at *
  obtain ⟨h1, h2, h3, h4, h5, h6, h7⟩ := hreset
  have hsz : (renewed rf d c).map Article.size = x.sizes := by
    rw [← recorded_sizes S]
    unfold renewed
    rw [List.map_map]
    apply List.map_congr_left
    intro a _
    simp only [Function.comp]
    split <;> rfl
  refine ⟨h1, h2, h3, h4, ⟨h7.1, h7.2, h7.3, h7.4, h7.5, h7.6⟩, ?_, ?_, ?_, ?_, ?_⟩
  · unfold storeState dropOut
    split <;> split <;> rfl
  · intro i hi
    unfold storeState dropOut
    split <;> split <;> simp [set, h2, hi]
  · intro k
    rw [(dk k).1]; unfold storeState; split <;> rfl
  · intro k
    rw [(dn k).1]; unfold storeState; split <;> rfl
  · intro d' hd hst
    unfold loadArticles
    dsimp only
    rw [h2, hd, S.data]
    dsimp only
    by_cases k : Kept d c
    · obtain ⟨hp, ha⟩ := h5 k
      rw [hp]
      dsimp only
      have hstate : d'.state c.id = some (stateOf r.2) := by
        rw [hst, storeState, hp]
        simp [set, h2]
      unfold loadState
      dsimp only
      rw [hstate]
      dsimp only
      have : applyEntries (x.sizes.map Article.new) (stateOf r.2).entries = some (renewed rf d c) := by
        unfold stateOf
        dsimp only
        rw [ha, ← hsz]
        exact applyEntries_stateOf _
      rw [this]
      dsimp only
      rw [Option.getD_some]
      refine ⟨rfl, ?_⟩
      obtain ⟨b1, b2, b3, b4, b5, b6⟩ := h7
      refine ⟨b1, b2, b3, b4, b5, ?_⟩
      dsimp only [stateOf]
      rw [ha]
      exact tried_stateOf _
    · rw [h6 k]
      dsimp only
      refine ⟨?_, ⟨h7.1, h7.2, h7.3, h7.4, h7.5, h7.6⟩⟩
      rw [renewed_none k, recorded_sizes S]

/-! ### The whole request -/

/-- The disk is the same for an ended file. -/
structure Same (d d' : Disk) (c : Completed) : Prop where
  data : d'.data c.id = d.data c.id
  state : d'.state c.id = d.state c.id
  out : d'.out c.name = d.out c.name

theorem Same.recorded {d d' : Disk} {c : Completed} (h : Same d d' c) : recorded d' c = recorded d c := by
  unfold HistoryRetry.recorded; rw [h.data, h.state]

theorem Same.parOf {d d' : Disk} {c : Completed} (h : Same d d' c) : parOf d' c = parOf d c := by
  unfold HistoryRetry.parOf; rw [h.data, h.state]

theorem Same.kept {d d' : Disk} {c : Completed} (h : Same d d' c) : Kept d' c = Kept d c := by
  unfold Kept Present; rw [h.recorded, h.out]

theorem Same.renewed {rf : Bool} {d d' : Disk} {c : Completed} (h : Same d d' c) : renewed rf d' c = renewed rf d c := by
  unfold HistoryRetry.renewed
  rw [h.recorded]
  apply List.map_congr_left
  intro a _
  have hk := h.kept
  by_cases k : Kept d c
  · simp [k, hk]
  · simp [k, hk]

theorem foldl_congr {α β : Type} (l : List α) (f g : β → α → β) (t : β) (h : ∀ t, ∀ a ∈ l, f t a = g t a) :
    l.foldl f t = l.foldl g t := by
  induction l generalizing t with
  | nil => rfl
  | cons a l ih => rw [List.foldl_cons, List.foldl_cons, h t a (.head _)]; exact ih _ fun t b hb => h t b (.tail _ hb)

theorem Same.wanted {rf : Bool} {d d' : Disk} {c : Completed} (h : Same d d' c) : Wanted rf d' c = Wanted rf d c := by
  unfold Wanted; rw [h.recorded]

theorem Same.sound {d d' : Disk} {c : Completed} (h : Same d d' c) {x : Data} (S : Sound d c x) : Sound d' c x := by
  refine ⟨by rw [h.data]; exact S.data, S.size, S.total, fun e => ?_⟩
  rw [h.state]; exact S.state e

/-- What is stored about the ended files of a download: their ids and names are different, and what is stored about files which did not
end successfully agrees with itself. -/
structure Stored (d : Disk) (l : List Completed) : Prop where
  ids : (l.map Completed.id).Nodup
  names : (l.map Completed.name).Nodup
  sound : ∀ c ∈ l, c.status ≠ .success → c.id > 0 ∧ ∃ x, Sound d c x

/-- A file of the queue is what is expected of an ended file; `d'`: the disk afterwards. -/
structure Back (rf : Bool) (d d' : Disk) (c : Completed) (f : File) : Prop where
  id : f.id = c.id
  name : f.name = c.name
  par : f.par = parOf d c
  counters : Describes f (renewed rf d c)
  loaded : (loadArticles d' f).articles = renewed rf d c
  loadedCounters : Describes (loadArticles d' f) (renewed rf d c)

theorem wanted_not_success {rf : Bool} {d : Disk} {c : Completed} (h : Wanted rf d c) : c.status ≠ .success := by
  intro e; simp [Wanted, e] at h

open Classical in
theorem retryLoop_spec (rf : Bool) (l : List Completed) : ∀ (d : Disk) (t : Totals), Stored d l →
    let r := retryLoop rf d t l
    r.1.data = d.data ∧ (∀ i, i ∉ l.map Completed.id → r.1.state i = d.state i) ∧
    r.2.2.2 = l.filter (fun c => ¬Wanted rf d c) ∧
    r.2.1 = (l.filter (fun c => Wanted rf d c)).foldl (fun t c => t.without (parOf d c) (recorded d c)) t ∧
    (∃ F : Completed → File, r.2.2.1 = (l.filter (fun c => Wanted rf d c)).map F ∧
      ∀ c ∈ l, Wanted rf d c → Back rf d r.1 c (F c)) ∧
    (∀ name, (r.1.out name = d.out name ∧ ∀ c ∈ l, c.name = name → Wanted rf d c → Kept d c) ∨
      (r.1.out name = none ∧ ∃ c ∈ l, c.name = name ∧ Wanted rf d c ∧ ¬Kept d c)) := by
  induction l with
  | nil =>
    intro d t _
    exact ⟨rfl, fun _ _ => rfl, rfl, rfl, ⟨fun c => ⟨0, "", 0, 0, 0, 0, 0, 0, 0, 0, 0, 0, false, .none, []⟩, rfl, fun _ h => nomatch h⟩,
      fun _ => .inl ⟨rfl, fun _ h => nomatch h⟩⟩
  | cons c l ih =>
    intro d t H
    have hids := H.ids
    have hnames := H.names
    rw [List.map_cons, List.nodup_cons] at hids hnames
    by_cases W : Wanted rf d c
    · obtain ⟨hid, x, S⟩ := H.sound c (.head _) (wanted_not_success W)
      obtain ⟨f, P⟩ := (pick_spec S hid).1 W
      have hu := unpark_spec S hid P t
      dsimp only at hu
      simp only [retryLoop, P]
      generalize unpark rf d t c f = u at *
      obtain ⟨u1, u2, u3, u4, u5, u6, u7, u8, u9, u10⟩ := hu
      have same : ∀ b ∈ l, Same d u.1 b := by
        intro b hb
        have hbi : b.id ≠ c.id := fun e => hids.1 (e ▸ List.mem_map.mpr ⟨b, hb, rfl⟩)
        have hbn : b.name ≠ c.name := fun e => hnames.1 (e ▸ List.mem_map.mpr ⟨b, hb, rfl⟩)
        refine ⟨by rw [u6], u7 _ hbi, ?_⟩
        by_cases k : Kept d c
        · rw [u8 k]
        · rw [u9 k]; simp [set, hbn]
      have H' : Stored u.1 l := ⟨hids.2, hnames.2, fun b hb hs => by
        obtain ⟨p1, y, p2⟩ := H.sound b (.tail _ hb) hs
        exact ⟨p1, y, (same b hb).sound p2⟩⟩
      have hr := ih u.1 u.2.1 H'
      dsimp only at hr
      generalize retryLoop rf u.1 u.2.1 l = r at *
      obtain ⟨r1, r2, r3, r4, ⟨F, r5, r6⟩, r7⟩ := hr
      have hfil : ∀ b ∈ l, (decide (Wanted rf u.1 b)) = decide (Wanted rf d b) := fun b hb => by simp only [(same b hb).wanted]
      have hfil2 : l.filter (fun c => Wanted rf u.1 c) = l.filter (fun c => Wanted rf d c) :=
        List.filter_congr fun b hb => hfil b hb
      refine ⟨r1.trans u6, ?_, ?_, ?_, ?_, ?_⟩
      · intro i hi
        rw [List.map_cons, List.mem_cons, not_or] at hi
        rw [r2 i hi.2, u7 i hi.1]
      · rw [List.filter_cons]
        simp only [W, not_true_eq_false, decide_false, Bool.false_eq_true, if_false]
        rw [r3]
        exact List.filter_congr fun b hb => by simp only [(same b hb).wanted]
      · rw [List.filter_cons]
        simp only [W, decide_true, if_true, List.foldl_cons]
        rw [r4, u1, hfil2]
        apply foldl_congr
        intro t' b hb
        have hb' := (List.mem_filter.mp hb).1
        rw [(same b hb').parOf, (same b hb').recorded]
      · refine ⟨fun b => if b = c then u.2.2 else F b, ?_, ?_⟩
        · rw [List.filter_cons]
          simp only [W, decide_true, if_true, List.map_cons]
          rw [r5, hfil2]
          congr 1
          apply List.map_congr_left
          intro b hb
          have hb' := (List.mem_filter.mp hb).1
          have : b ≠ c := fun e => hids.1 (List.mem_map.mpr ⟨b, hb', by rw [e]⟩)
          rw [if_neg this]
        · intro b hb Wb
          rcases List.mem_cons.mp hb with rfl | hb'
          · dsimp only
            rw [if_pos rfl]
            obtain ⟨q1, q2⟩ := u10 r.1 (by rw [r1, u6]) (r2 _ hids.1)
            exact ⟨u2, u3, u4, u5, q1, q2⟩
          · have hne : b ≠ c := fun e => hids.1 (List.mem_map.mpr ⟨b, hb', by rw [e]⟩)
            dsimp only
            rw [if_neg hne]
            have hb2 := r6 b hb' (by rw [(same b hb').wanted]; exact Wb)
            obtain ⟨q1, q2, q3, q4, q5, q6⟩ := hb2
            rw [(same b hb').renewed] at q4 q5 q6
            rw [(same b hb').parOf] at q3
            exact ⟨q1, q2, q3, q4, q5, q6⟩
      · intro name
        by_cases hn : c.name = name
        · have hl : ∀ b ∈ l, b.name ≠ name := fun b hb e => hnames.1 (by rw [hn, ← e]; exact List.mem_map.mpr ⟨b, hb, rfl⟩)
          have ho : r.1.out name = u.1.out name := by
            rcases r7 name with h | ⟨_, b, hb, e, _⟩
            · exact h.1
            · exact absurd e (hl b hb)
          rw [ho]
          by_cases k : Kept d c
          · left
            rw [u8 k]
            refine ⟨rfl, fun b hb e _ => ?_⟩
            rcases List.mem_cons.mp hb with rfl | hb'
            · exact k
            · exact absurd e (hl b hb')
          · right
            rw [u9 k]
            exact ⟨by simp [set, hn], c, .head _, hn, W, k⟩
        · have ho : u.1.out name = d.out name := by
            by_cases k : Kept d c
            · rw [u8 k]
            · rw [u9 k]; simp [set, Ne.symm hn]
          rcases r7 name with ⟨h1, h2⟩ | ⟨h1, b, hb, e, h3, h4⟩
          · left
            refine ⟨h1.trans ho, fun b hb e w => ?_⟩
            rcases List.mem_cons.mp hb with rfl | hb'
            · exact absurd e hn
            · rw [← (same b hb').kept]
              exact h2 b hb' e (by rw [(same b hb').wanted]; exact w)
          · right
            refine ⟨h1, b, .tail _ hb, e, ?_, ?_⟩
            · rw [← (same b hb).wanted]; exact h3
            · rw [← (same b hb).kept]; exact h4
    · have P : pick rf d c = none := by
        cases hp : pick rf d c with
        | none => rfl
        | some f =>
          exfalso
          have hs : c.status ≠ .success := by
            intro e
            simp [pick, e] at hp
          obtain ⟨hid, x, S⟩ := H.sound c (.head _) hs
          exact W ((pick_spec S hid).2 f hp).1
      simp only [retryLoop, P]
      have hr := ih d t ⟨hids.2, hnames.2, fun b hb => H.sound b (.tail _ hb)⟩
      dsimp only at hr
      generalize retryLoop rf d t l = r at *
      obtain ⟨r1, r2, r3, r4, ⟨F, r5, r6⟩, r7⟩ := hr
      refine ⟨r1, ?_, ?_, ?_, ⟨F, ?_, ?_⟩, ?_⟩
      · intro i hi
        rw [List.map_cons, List.mem_cons, not_or] at hi
        exact r2 i hi.2
      · rw [List.filter_cons]; simp only [W, not_false_eq_true, decide_true, if_true]; rw [r3]
      · rw [List.filter_cons]; simp only [W, decide_false, Bool.false_eq_true, if_false]; exact r4
      · rw [List.filter_cons]; simp only [W, decide_false, Bool.false_eq_true, if_false]; exact r5
      · intro b hb Wb
        rcases List.mem_cons.mp hb with rfl | hb'
        · exact absurd Wb W
        · exact r6 b hb' Wb
      · intro name
        rcases r7 name with ⟨h1, h2⟩ | ⟨h1, b, hb, h3⟩
        · left
          refine ⟨h1, fun b hb e w => ?_⟩
          rcases List.mem_cons.mp hb with rfl | hb'
          · exact absurd w W
          · exact h2 b hb' e w
        · exact .inr ⟨h1, b, .tail _ hb, h3⟩

end Verif.HistoryRetry
