import Verif.HistoryRetryLemmas

/-
A download in the history goes back to the queue. The specification (`recorded`, `Kept`, `renewed`, `Wanted`, `Describes`, `Stored`,
`Totals.with`, `Totals.without`) is in the file `HistoryRetryLemmas`.
-/
namespace Verif.HistoryRetry

/-! ### An example -/

/-- File 1 has three articles: downloaded, failed, not tried. File 2 failed. File 3 was not begun. File 4 was downloaded. -/
def exDisk : Disk where
  data i := if i = 1 then some ⟨60, 0, 3, 0, false, [10, 20, 30]⟩ else if i = 2 then some ⟨5, 0, 1, 0, true, [5]⟩
    else if i = 3 then some ⟨7, 0, 1, 0, false, [7]⟩ else none
  state i := if i = 1 then some ⟨1, 1, 30, 10, 20, false, [⟨.finished, 0, 10, 77⟩, ⟨.failed, 0, 0, 0⟩, ⟨.undefined, 0, 0, 0⟩]⟩ else none
  out s := if s = "a" then some 10 else if s = "d" then some 9 else none

/-- The download of the example in the history. -/
def exNzb : Nzb :=
  { files := [], completed := [⟨4, "d", .success⟩, ⟨1, "a", .partly⟩, ⟨2, "b", .failure⟩, ⟨3, "c", .none⟩],
    totals := ⟨19, 25, 2, 2, 0, 5⟩, parked := 1 }

theorem exStored : Stored exDisk exNzb.completed := by
  refine ⟨by decide, by decide, ?_⟩
  intro c hc hs
  simp only [exNzb, List.mem_cons, List.not_mem_nil, or_false] at hc
  rcases hc with rfl | rfl | rfl | rfl
  · exact absurd rfl hs
  · exact ⟨by decide, ⟨60, 0, 3, 0, false, [10, 20, 30]⟩, rfl, by decide, by decide,
      fun _ => ⟨_, _, rfl, rfl, rfl, by decide, by decide, by decide, by decide, by decide⟩⟩
  · exact ⟨by decide, ⟨5, 0, 1, 0, true, [5]⟩, rfl, by decide, by decide, fun h => nomatch h⟩
  · exact ⟨by decide, ⟨7, 0, 1, 0, false, [7]⟩, rfl, by decide, by decide, fun h => nomatch h⟩

/-! ### Which files go back -/

open Classical in
/-- Exactly the wanted files go back to the queue, each one once and in their order; all others stay ended files. -/
theorem retry_files (rf : Bool) (d : Disk) (n : Nzb) (H : Stored d n.completed) :
    (retry rf d n).2.completed = n.completed.filter (fun c => ¬Wanted rf d c) ∧
    (retry rf d n).2.files.map File.id =
      n.files.map File.id ++ (n.completed.filter (fun c => Wanted rf d c)).map Completed.id := by
  have h := retryLoop_spec rf n.completed d n.totals H
  dsimp only at h
  obtain ⟨_, _, h3, _, ⟨F, h5, h6⟩, _⟩ := h
  refine ⟨h3, ?_⟩
  simp only [retry]
  rw [List.map_append, h5, List.map_map]
  congr 1
  apply List.map_congr_left
  intro c hc
  obtain ⟨hc, w⟩ := List.mem_filter.mp hc
  exact (h6 c hc (by simpa using w)).id

example : (retry true exDisk exNzb).2.files.map File.id = [1, 2, 3] := by decide +kernel
example : (retry false exDisk exNzb).2.files.map File.id = [1, 3] := by decide +kernel

/-- Each wanted file is in the queue with the articles and counters which are expected of it. -/
theorem retry_back (rf : Bool) (d : Disk) (n : Nzb) (H : Stored d n.completed) (c : Completed) (hc : c ∈ n.completed)
    (hw : Wanted rf d c) : ∃ f ∈ (retry rf d n).2.files, Back rf d (retry rf d n).1 c f := by
  have h := retryLoop_spec rf n.completed d n.totals H
  dsimp only at h
  obtain ⟨_, _, _, _, ⟨F, h5, h6⟩, _⟩ := h
  refine ⟨F c, ?_, h6 c hc hw⟩
  simp only [retry]
  rw [h5]
  exact List.mem_append_right _ (List.mem_map.mpr ⟨c, List.mem_filter.mpr ⟨hc, by simpa using hw⟩, rfl⟩)

/-- With "retry failed articles" every article of every file which did not end successfully is downloaded again unless it was
downloaded and the file is on disk; what was downloaded and is on disk is not downloaded again. -/
theorem retry_failed_all (d : Disk) (n : Nzb) (H : Stored d n.completed) (c : Completed) (hc : c ∈ n.completed)
    (hs : c.status ≠ .success) :
    ∃ f ∈ (retry true d n).2.files, f.id = c.id ∧ f.name = c.name ∧
      (loadArticles (retry true d n).1 f).articles.length = (recorded d c).length ∧
      ∀ (i : Nat) (a : Article), (recorded d c)[i]? = some a → ∃ b : Article, (loadArticles (retry true d n).1 f).articles[i]? = some b ∧ b.size = a.size ∧
        (b.status = .finished ↔ a.status = .finished ∧ Present d c) ∧ (b.status = .finished → b = a) ∧
        (b.status ≠ .finished → b.status = .undefined) := by
  have hw : Wanted true d c := by
    unfold Wanted
    cases h : c.status with
    | success => exact absurd h hs
    | none => exact .inl rfl
    | failure => exact .inr (.inl ⟨rfl, rfl⟩)
    | partly => exact .inr (.inr ⟨rfl, .inl rfl⟩)
  obtain ⟨f, hf, B⟩ := retry_back true d n H c hc hw
  refine ⟨f, hf, B.id, B.name, ?_, ?_⟩
  · rw [B.loaded]; exact List.length_map ..
  · intro i a ha
    rw [B.loaded]
    unfold renewed
    rw [List.getElem?_map, ha]
    refine ⟨_, rfl, ?_⟩
    dsimp only
    have ham : a ∈ recorded d c := List.mem_of_getElem? ha
    by_cases k : Kept d c
    · by_cases e : a.status = .failed
      · simp [k, e, Article.new]
      · rw [if_pos ⟨k, fun h => e h.1⟩]
        refine ⟨rfl, ⟨fun h => ⟨h, k.2⟩, fun h => h.1⟩, fun _ => rfl, fun h => ?_⟩
        cases hst : a.status with
        | undefined => rfl
        | finished => exact absurd hst h
        | failed => exact absurd hst e
    · rw [if_neg (fun h => k h.1)]
      refine ⟨rfl, ⟨(fun h => nomatch h), fun h => absurd ⟨⟨a, ham, h.1⟩, h.2⟩ k⟩, (fun h => nomatch h), fun _ => rfl⟩

example : ∃ c ∈ exNzb.completed, c.status ≠ .success ∧ Present exDisk c := ⟨⟨1, "a", .partly⟩, by decide, by decide, 10, rfl, by decide⟩
example : ((retry true exDisk exNzb).2.files.map fun f => (loadArticles (retry true exDisk exNzb).1 f).articles.map Article.status) =
    [[.finished, .undefined, .undefined], [.undefined], [.undefined]] := by decide +kernel

/-- With "download remaining files" every untried article is downloaded; what was downloaded and is on disk is not downloaded again,
and articles which failed are not tried again unless nothing of the file is kept. -/
theorem return_remaining (d : Disk) (n : Nzb) (H : Stored d n.completed) (c : Completed) (hc : c ∈ n.completed)
    (hs : c.status = .none ∨ (c.status = .partly ∧ sizeOf .undefined (recorded d c) > 0)) :
    ∃ f ∈ (retry false d n).2.files, f.id = c.id ∧ f.name = c.name ∧
      (loadArticles (retry false d n).1 f).articles.length = (recorded d c).length ∧
      ∀ (i : Nat) (a : Article), (recorded d c)[i]? = some a → ∃ b : Article, (loadArticles (retry false d n).1 f).articles[i]? = some b ∧ b.size = a.size ∧
        (a.status = .undefined → b.status = .undefined) ∧ (Kept d c → b = a) ∧ (¬Kept d c → b.status = .undefined) := by
  have hw : Wanted false d c := by
    rcases hs with h | ⟨h, h'⟩
    · exact .inl h
    · exact .inr (.inr ⟨h, .inr h'⟩)
  obtain ⟨f, hf, B⟩ := retry_back false d n H c hc hw
  refine ⟨f, hf, B.id, B.name, ?_, ?_⟩
  · rw [B.loaded]; exact List.length_map ..
  · intro i a ha
    rw [B.loaded]
    unfold renewed
    rw [List.getElem?_map, ha]
    refine ⟨_, rfl, ?_⟩
    dsimp only
    by_cases k : Kept d c
    · rw [if_pos ⟨k, fun h => nomatch h.2⟩]
      exact ⟨rfl, fun h => h, fun _ => rfl, fun h => absurd k h⟩
    · rw [if_neg (fun h => k h.1)]
      exact ⟨rfl, fun _ => rfl, fun h => absurd h k, fun _ => rfl⟩

example : ((retry false exDisk exNzb).2.files.map fun f => (loadArticles (retry false exDisk exNzb).1 f).articles.map Article.status) =
    [[.finished, .failed, .undefined], [.undefined]] := by decide +kernel

/-! ### The totals -/

theorem add_with {f : File} {l : List Article} (D : Describes f l) (t : Totals) : t.add f = t.with f.par l := by
  obtain ⟨b1, b2, b3, b4, b5, b6⟩ := D
  simp only [Totals.add, Totals.with, b2, b3, b4, b5]

open Classical in
/-- The totals of the download after the request: the articles of the files which go back are taken away as they were recorded, and
counted as they are now; what remains to be downloaded is the size of all untried articles. -/
theorem retry_totals (rf : Bool) (d : Disk) (n : Nzb) (H : Stored d n.completed) (hf : n.files = []) :
    let w := n.completed.filter (fun c => Wanted rf d c)
    (retry rf d n).2.current =
      w.foldl (fun t c => t.with (parOf d c) (renewed rf d c)) (w.foldl (fun t c => t.without (parOf d c) (recorded d c)) n.totals) ∧
    (retry rf d n).2.remaining = (w.map fun c => sizeOf .undefined (renewed rf d c)).sum := by
  have h := retryLoop_spec rf n.completed d n.totals H
  dsimp only at h ⊢
  obtain ⟨_, _, _, h4, ⟨F, h5, h6⟩, _⟩ := h
  have hB : ∀ c ∈ n.completed.filter (fun c => Wanted rf d c), Back rf d (retryLoop rf d n.totals n.completed).1 c (F c) := by
    intro c hc
    obtain ⟨hc, w⟩ := List.mem_filter.mp hc
    exact h6 c hc (by simpa using w)
  generalize n.completed.filter (fun c => Wanted rf d c) = w at *
  constructor
  · simp only [Nzb.current, retry]
    rw [h4, h5, hf, List.nil_append, List.foldl_map]
    apply foldl_congr
    intro t c hc
    rw [add_with (hB c hc).counters, (hB c hc).par]
  · simp only [Nzb.remaining, retry]
    rw [h5, hf, List.nil_append, List.foldl_map]
    clear h4 h5
    have : ∀ (r : Int), w.foldl (fun r c => r + (F c).remaining) r = r + (w.map fun c => sizeOf .undefined (renewed rf d c)).sum := by
      induction w with
      | nil => intro r; simp
      | cons c w ih =>
        intro r
        rw [List.foldl_cons, ih (fun b hb => hB b (.tail _ hb)), List.map_cons, List.sum_cons, (hB c (.head _)).counters.remaining]
        omega
    rw [this, Int.zero_add]

example : (retry true exDisk exNzb).2.current = ⟨19, 0, 2, 0, 0, 0⟩ ∧ (retry true exDisk exNzb).2.remaining = 62 := by decide +kernel
example : (retry false exDisk exNzb).2.current = ⟨19, 25, 2, 2, 0, 5⟩ ∧ (retry false exDisk exNzb).2.remaining = 37 := by decide +kernel

/-! ### The files on disk -/

/-- No file of the download is removed from the destination directory but one of which nothing is kept. -/
theorem retry_out (rf : Bool) (d : Disk) (n : Nzb) (H : Stored d n.completed) (name : String) :
    ((retry rf d n).1.out name = d.out name ∧ ∀ c ∈ n.completed, c.name = name → Wanted rf d c → Kept d c) ∨
    ((retry rf d n).1.out name = none ∧ ∃ c ∈ n.completed, c.name = name ∧ Wanted rf d c ∧ ¬Kept d c) :=
  (retryLoop_spec rf n.completed d n.totals H).2.2.2.2.2 name

/-- What belongs to files which ended successfully is never removed. -/
theorem retry_keeps_done (rf : Bool) (d : Disk) (n : Nzb) (H : Stored d n.completed) (c : Completed) (hc : c ∈ n.completed)
    (hs : c.status = .success) : (retry rf d n).1.out c.name = d.out c.name := by
  rcases retry_out rf d n H c.name with h | ⟨_, b, hb, e, w, _⟩
  · exact h.1
  · have : b = c := by
      have hn := H.names
      generalize n.completed = l at *
      clear H
      induction l with
      | nil => cases hc
      | cons y l ih =>
        rw [List.map_cons, List.nodup_cons] at hn
        rcases List.mem_cons.mp hc with rfl | hc' <;> rcases List.mem_cons.mp hb with rfl | hb'
        · rfl
        · exact absurd (List.mem_map.mpr ⟨b, hb', e⟩) hn.1
        · exact absurd (List.mem_map.mpr ⟨c, hc', e.symm⟩) hn.1
        · exact ih hc' hb' hn.2
    rw [this] at w
    exact absurd hs (wanted_not_success w)

example : (retry true exDisk exNzb).1.out "d" = some 9 := by decide +kernel

/-! ### Where the stored states come from -/

/-- The state of an article as it matters here. -/
def view (a : Article) : Int × AStatus := (a.size, a.status)

theorem numberOf_le (s : AStatus) (l : List Article) : numberOf s l ≤ l.length := by
  simp only [numberOf]; have := List.length_filter_le (fun a : Article => decide (a.status = s)) l; omega

theorem numberOf_all {s : AStatus} {l : List Article} (h : numberOf s l = l.length) : ∀ a ∈ l, a.status = s := by
  induction l with
  | nil => intro a ha; cases ha
  | cons b l ih =>
    rw [numberOf_cons, List.length_cons] at h
    have := numberOf_le s l
    by_cases e : b.status = s
    · rw [if_pos e] at h
      intro a ha
      rcases List.mem_cons.mp ha with rfl | ha
      · exact e
      · exact ih (by omega) a ha
    · rw [if_neg e] at h; omega

theorem numberOf_none {s : AStatus} {l : List Article} (h : numberOf s l ≤ 0) : ∀ a ∈ l, a.status ≠ s := by
  intro a ha e
  have := numberOf_pos.mpr ⟨a, ha, e⟩
  omega

theorem view_all {s : AStatus} {l : List Article} (h : ∀ a ∈ l, a.status = s) :
    l.map view = (l.map Article.size).map fun z => (z, s) := by
  rw [List.map_map]
  apply List.map_congr_left
  intro a ha
  simp [view, h a ha]

/-- The end of a file stores what happened to its articles: what is recorded afterwards is what its articles were, the totals of the
download stay the same, and nothing about other files is changed. -/
theorem complete_recorded (d : Disk) (n : Nzb) (f : File) (rest : List File) (name : String) (x : Data)
    (hn : n.files = f :: rest) (D : Describes f f.articles) (hx : d.data f.id = some x)
    (h1 : x.sizes = f.articles.map Article.size) (h2 : x.size - x.missed = x.sizes.sum) (h3 : x.total = f.total)
    (h4 : x.missedArticles = f.missedArticles) (h5 : x.total - x.missedArticles = x.sizes.length) (h6 : x.par = f.par) :
    let r := complete d n f rest name
    let c : Completed := ⟨f.id, name, statusOf f⟩
    r.2.current = n.current ∧ r.2.completed = n.completed ++ [c] ∧
    (c.status ≠ .success → Sound r.1 c x ∧ (recorded r.1 c).map view = f.articles.map view ∧ parOf r.1 c = f.par) ∧
    (∀ i, i ≠ f.id → r.1.data i = d.data i ∧ r.1.state i = d.state i) ∧ r.1.out = d.out := by
  obtain ⟨b1, b2, b3, b4, b5, b6⟩ := D
  have hlen : x.sizes.length = f.articles.length := by rw [h1, List.length_map]
  dsimp only
  refine ⟨?_, rfl, ?_, ?_, ?_⟩
  · simp only [complete, Nzb.current, hn, List.foldl_cons]
  · intro hs
    have e1 : f.total ≠ f.successArticles := by
      intro e; apply hs; unfold statusOf; rw [if_pos e]
    by_cases e2 : f.total = f.missedArticles + f.failedArticles
    · have hst : statusOf f = .failure := by unfold statusOf; rw [if_neg e1, if_pos e2]
      have hd : (complete d n f rest name).1 = d := by simp [complete, hst]
      rw [hd, hst]
      refine ⟨⟨hx, h2, h5, fun h => nomatch h⟩, ?_, ?_⟩
      · simp only [recorded, hx]
        have hall : ∀ a ∈ f.articles, a.status = .failed := numberOf_all (by rw [← b5]; omega)
        rw [view_all hall, ← h1, List.map_map]
        rfl
      · simp only [parOf, hx]; exact h6
    · by_cases e3 : f.successArticles > 0 ∨ f.failedArticles > 0
      · have hst : statusOf f = .partly := by unfold statusOf; rw [if_neg e1, if_neg e2, if_pos e3]
        have hd : (complete d n f rest name).1 = { d with state := set d.state f.id (some (stateOf f)) } := by simp [complete, hst]
        rw [hd, hst]
        have happ : applyEntries (x.sizes.map Article.new) (stateOf f).entries = some f.articles := by
          rw [h1]; exact applyEntries_stateOf _
        refine ⟨⟨hx, h2, h5, fun _ => ⟨stateOf f, f.articles, by simp [set], ?_, happ, b1, b2, b3, b4, b5⟩⟩, ?_, ?_⟩
        · rw [hlen]; simp [stateOf]
        · simp only [recorded, hx, set, if_true, happ, Option.getD_some]
        · simp only [parOf, hx, set, if_true, stateOf]
      · have hst : statusOf f = .none := by unfold statusOf; rw [if_neg e1, if_neg e2, if_neg e3]
        have hd : (complete d n f rest name).1 = d := by simp [complete, hst]
        rw [hd, hst]
        refine ⟨⟨hx, h2, h5, fun h => nomatch h⟩, ?_, ?_⟩
        · simp only [recorded, hx]
          have hall : ∀ a ∈ f.articles, a.status = .undefined := by
            intro a ha
            have n1 := numberOf_none (s := .finished) (l := f.articles) (by rw [← b4]; omega) a ha
            have n2 := numberOf_none (s := .failed) (l := f.articles) (by rw [← b5]; omega) a ha
            cases h : a.status with
            | undefined => rfl
            | finished => exact absurd h n1
            | failed => exact absurd h n2
          rw [view_all hall, ← h1, List.map_map]
          rfl
        · simp only [parOf, hx]; exact h6
  · intro i hi
    unfold complete
    dsimp only
    split <;> split <;> simp [set, hi]
  · unfold complete
    dsimp only
    split <;> split <;> rfl

/-- A file of three articles: one downloaded, one failed, one not tried. -/
def exFile : File :=
  { id := 1, name := "a", size := 60, missed := 0, remaining := 30, success := 10, failed := 20, total := 3, missedArticles := 0,
    successArticles := 1, failedArticles := 1, completedArticles := 2, par := false, part := .none,
    articles := [⟨10, .finished, 0, 10, 77⟩, ⟨20, .failed, 0, 0, 0⟩, ⟨30, .undefined, 0, 0, 0⟩] }

example : Describes exFile exFile.articles := ⟨by decide, by decide, by decide, by decide, by decide, by decide⟩
example : statusOf exFile = .partly := by decide

/-! ### Parked files -/

theorem parkFiles (l : List File) (n : Nzb) :
    (l.foldl parkFile n).totals = l.foldl Totals.add n.totals ∧
    (l.foldl parkFile n).completed = n.completed ++ l.map fun f => ⟨f.id, f.name, .none⟩ := by
  induction l generalizing n with
  | nil => simp
  | cons f l ih =>
    rw [List.foldl_cons, List.foldl_cons, (ih _).1, (ih _).2]
    simp [parkFile]

/-- A download which is moved to the history keeps its totals; its remaining files are parked. -/
theorem park_totals (n : Nzb) :
    (addToHistory n).current = n.current ∧ (addToHistory n).files = [] ∧
    (addToHistory n).completed = n.completed ++ n.files.map fun f => ⟨f.id, f.name, .none⟩ := by
  obtain ⟨h1, h2⟩ := parkFiles n.files n
  exact ⟨h1, rfl, h2⟩

theorem countParked_pos {l : List Completed} {c : Completed} (hc : c ∈ l) (hs : c.status = .none) : countParked l > 0 := by
  induction l with
  | nil => cases hc
  | cons b l ih =>
    unfold countParked
    rcases List.mem_cons.mp hc with rfl | hc
    · rw [if_pos (.inl hs)]; omega
    · have := ih hc; omega

/-- A download which is moved to the history with remaining files can be returned, and each of these files is then in the queue
with all its articles untried. -/
theorem parked_return (n : Nzb) (d : Disk) (H : Stored d (addToHistory n).completed) (f : File) (hf : f ∈ n.files) :
    ∃ r, giveBack d (addToHistory n) = some r ∧
    ∃ g ∈ r.2.files, g.id = f.id ∧ g.name = f.name ∧ ∃ x, d.data f.id = some x ∧
      (loadArticles r.1 g).articles = x.sizes.map Article.new := by
  have hmem : (⟨f.id, f.name, .none⟩ : Completed) ∈ (addToHistory n).completed := by
    rw [(park_totals n).2.2]
    exact List.mem_append_right _ (List.mem_map.mpr ⟨f, hf, rfl⟩)
  have hp : (addToHistory n).parked > 0 := countParked_pos hmem rfl
  refine ⟨_, by unfold giveBack; rw [if_neg (by omega)], ?_⟩
  obtain ⟨g, hg, B⟩ := retry_back false d (addToHistory n) H _ hmem (.inl rfl)
  obtain ⟨_, x, S⟩ := H.sound _ hmem (fun h => nomatch h)
  refine ⟨g, hg, B.id, B.name, x, S.data, ?_⟩
  rw [B.loaded]
  have hk : ¬Kept d ⟨f.id, f.name, .none⟩ := by
    rintro ⟨⟨a, ha, e⟩, _⟩
    simp only [recorded, S.data] at ha
    obtain ⟨z, _, rfl⟩ := List.mem_map.mp ha
    cases e
  rw [renewed_none hk, recorded_sizes S]

/-- The example as it is before it is moved to the history: file 3 is paused. -/
def exQueue : Nzb :=
  { exNzb with files := [⟨3, "c", 7, 0, 7, 0, 0, 1, 0, 0, 0, 0, false, .none, []⟩],
               completed := [⟨4, "d", .success⟩, ⟨1, "a", .partly⟩, ⟨2, "b", .failure⟩] }

example : addToHistory exQueue = exNzb := by decide

/-! ### What goes wrong -/

/-- A file of which articles are missing in the nzb-file and all others were downloaded is returned by "retry failed articles", although
it has nothing to download: no article of it is ever started, so it never ends and the download never completes. -/
theorem retry_stuck (d : Disk) (n : Nzb) (H : Stored d n.completed) (c : Completed) (hc : c ∈ n.completed)
    (hs : c.status = .partly) (hf : ∀ a ∈ recorded d c, a.status = .finished) (hp : Present d c) :
    ∃ f ∈ (retry true d n).2.files, f.id = c.id ∧ ∀ a ∈ (loadArticles (retry true d n).1 f).articles, a.status ≠ .undefined := by
  obtain ⟨f, hf', B⟩ := retry_back true d n H c hc (.inr (.inr ⟨hs, .inl rfl⟩))
  refine ⟨f, hf', B.id, ?_⟩
  rw [B.loaded]
  intro a ha
  unfold renewed at ha
  obtain ⟨b, hb, rfl⟩ := List.mem_map.mp ha
  have k : Kept d c := ⟨⟨b, hb, hf b hb⟩, hp⟩
  rw [if_pos ⟨k, fun h => by rw [hf b hb] at h; exact nomatch h.1⟩, hf b hb]
  intro h; cases h

/-- A file of two parts; the nzb-file names only one of them. -/
def stuckDisk : Disk where
  data i := if i = 1 then some ⟨20, 10, 2, 1, false, [10]⟩ else none
  state i := if i = 1 then some ⟨1, 0, 0, 10, 0, false, [⟨.finished, 0, 10, 77⟩]⟩ else none
  out s := if s = "a" then some 10 else none

/-- Its download in the history. -/
def stuckNzb : Nzb := { files := [], completed := [⟨1, "a", .partly⟩], totals := ⟨10, 10, 1, 1, 0, 0⟩, parked := 1 }

theorem stuckStored : Stored stuckDisk stuckNzb.completed := by
  refine ⟨by decide, by decide, ?_⟩
  intro c hc hs
  simp only [stuckNzb, List.mem_cons, List.not_mem_nil, or_false] at hc
  subst hc
  exact ⟨by decide, ⟨20, 10, 2, 1, false, [10]⟩, rfl, by decide, by decide,
      fun _ => ⟨_, _, rfl, rfl, rfl, by decide, by decide, by decide, by decide, by decide⟩⟩

example : ((retry true stuckDisk stuckNzb).2.files.map fun f => (loadArticles (retry true stuckDisk stuckNzb).1 f).articles.map
    Article.status) = [[.finished]] := by decide +kernel

/-- Every file which goes back has something to download, if each partly downloaded file has an article which failed or was not tried
(or is not on disk). Missing: files of which only missing articles were not downloaded, see `retry_stuck`. -/
theorem retry_progress_partial (d : Disk) (n : Nzb) (H : Stored d n.completed) (c : Completed) (hc : c ∈ n.completed)
    (hs : c.status ≠ .success) (hne : recorded d c ≠ [])
    (hp : c.status = .partly → ¬Present d c ∨ ∃ a ∈ recorded d c, a.status ≠ .finished) :
    ∃ f ∈ (retry true d n).2.files, f.id = c.id ∧ ∃ a ∈ (loadArticles (retry true d n).1 f).articles, a.status = .undefined := by
  obtain ⟨f, hf, h1, h2, h3, h4⟩ := retry_failed_all d n H c hc hs
  refine ⟨f, hf, h1, ?_⟩
  obtain ⟨_, x, S⟩ := H.sound c hc hs
  have key : ∃ a ∈ recorded d c, ¬(a.status = .finished ∧ Present d c) := by
    obtain ⟨a, l, e⟩ := List.exists_cons_of_ne_nil hne
    cases hst : c.status with
    | success => exact absurd hst hs
    | partly =>
      rcases hp hst with h | ⟨b, hb, h⟩
      · exact ⟨a, by rw [e]; exact .head _, fun k => h k.2⟩
      · exact ⟨b, hb, fun k => h k.1⟩
    | none =>
      have ha : a ∈ recorded d c := by rw [e]; exact .head _
      refine ⟨a, ha, fun k => ?_⟩
      simp only [recorded, S.data, hst] at ha
      obtain ⟨z, _, rfl⟩ := List.mem_map.mp ha
      exact nomatch k.1
    | failure =>
      have ha : a ∈ recorded d c := by rw [e]; exact .head _
      refine ⟨a, ha, fun k => ?_⟩
      simp only [recorded, S.data, hst] at ha
      obtain ⟨z, _, rfl⟩ := List.mem_map.mp ha
      exact nomatch k.1
  obtain ⟨a, ha, hk⟩ := key
  obtain ⟨i, hi⟩ := List.mem_iff_getElem?.mp ha
  obtain ⟨b, hb, _, h5, _, h6⟩ := h4 i a hi
  exact ⟨b, List.mem_of_getElem? hb, h6 fun h => hk (h5.mp h)⟩

/-- A download whose last file has failed articles and no untried ones is shown with a parked file. It can be returned, but nothing
remains: it is in the queue without any file, and as it is not processed again it stays there. -/
theorem return_nothing :
    countParked [⟨2, "b", .success⟩, ⟨1, "a", .partly⟩] = 1 ∧
    ∃ (d : Disk) (n : Nzb), Stored d n.completed ∧ n.completed = [⟨2, "b", .success⟩, ⟨1, "a", .partly⟩] ∧
      n.parked = countParked n.completed ∧ ∃ r, giveBack d n = some r ∧ r.2.files = [] ∧ r.2.remaining = 0 := by
  refine ⟨by decide, { stuckDisk with state := fun i => if i = 1 then some ⟨0, 1, 0, 0, 10, false, [⟨.failed, 0, 0, 0⟩]⟩ else none },
    { files := [], completed := [⟨2, "b", .success⟩, ⟨1, "a", .partly⟩], totals := ⟨0, 20, 0, 2, 0, 0⟩, parked := 1 }, ?_, rfl, by decide, ?_⟩
  · refine ⟨by decide, by decide, ?_⟩
    intro c hc hs
    simp only [List.mem_cons, List.not_mem_nil, or_false] at hc
    rcases hc with rfl | rfl
    · exact absurd rfl hs
    · exact ⟨by decide, ⟨20, 10, 2, 1, false, [10]⟩, rfl, by decide, by decide,
        fun _ => ⟨_, _, rfl, rfl, rfl, by decide, by decide, by decide, by decide, by decide⟩⟩
  · refine ⟨_, rfl, by decide +kernel, by decide +kernel⟩

/-- A file with untried articles which is not the last one is not counted as parked: its download cannot be returned. -/
theorem return_refused :
    ∃ (d : Disk) (n : Nzb), Stored d n.completed ∧ n.parked = countParked n.completed ∧
      (∃ c ∈ n.completed, Wanted false d c ∧ ∃ a ∈ recorded d c, a.status = .undefined) ∧ giveBack d n = none := by
  refine ⟨exDisk, { files := [], completed := [⟨1, "a", .partly⟩, ⟨4, "d", .success⟩], totals := ⟨19, 20, 2, 1, 0, 0⟩, parked := 0 },
    ?_, by decide, ⟨⟨1, "a", .partly⟩, .head _, .inr (.inr ⟨rfl, .inr (by decide)⟩), ⟨30, .undefined, 0, 0, 0⟩, by decide, rfl⟩, rfl⟩
  refine ⟨by decide, by decide, ?_⟩
  intro c hc hs
  simp only [List.mem_cons, List.not_mem_nil, or_false] at hc
  rcases hc with rfl | rfl
  · exact ⟨by decide, ⟨60, 0, 3, 0, false, [10, 20, 30]⟩, rfl, by decide, by decide,
      fun _ => ⟨_, _, rfl, rfl, rfl, by decide, by decide, by decide, by decide, by decide⟩⟩
  · exact absurd rfl hs

/-- A file which was partly downloaded when it was parked is counted twice after its return: what was downloaded or failed stays in the
totals, and all of it remains to be downloaded. -/
theorem parked_twice (n : Nzb) (d : Disk) (f : File) (x : Data) (hn : n.files = [f]) (hc : n.completed = [])
    (hid : f.id > 0) (hx : d.data f.id = some x) (h1 : x.size - x.missed = x.sizes.sum) (h2 : x.total - x.missedArticles = x.sizes.length) :
    ∃ r, giveBack d (addToHistory n) = some r ∧
      r.2.current.success = n.totals.success + f.success ∧ r.2.current.failed = n.totals.failed + f.failed ∧
      r.2.remaining = x.size - x.missed := by
  have hadd : addToHistory n = { n with files := [], totals := n.totals.add f, completed := [⟨f.id, f.name, .none⟩], parked := 1 } := by
    simp [addToHistory, hn, hc, parkFile, countParked]
  rw [hadd]
  refine ⟨_, rfl, ?_⟩
  have S : Sound d ⟨f.id, f.name, .none⟩ x := ⟨hx, h1, h2, fun h => nomatch h⟩
  have hst : Stored d [⟨f.id, f.name, .none⟩] := by
    refine ⟨by simp, by simp, ?_⟩
    intro c hc' _
    simp only [List.mem_cons, List.not_mem_nil, or_false] at hc'
    subst hc'
    exact ⟨hid, x, S⟩
  have ht := retry_totals false d { n with files := [], totals := n.totals.add f, completed := [⟨f.id, f.name, .none⟩], parked := 1 } hst rfl
  dsimp only at ht
  have hw : Wanted false d ⟨f.id, f.name, .none⟩ := .inl rfl
  have hrec : recorded d ⟨f.id, f.name, .none⟩ = x.sizes.map Article.new := by simp [recorded, hx]
  have hk : ¬Kept d ⟨f.id, f.name, .none⟩ := by
    rintro ⟨⟨a, ha, e⟩, _⟩
    rw [hrec] at ha
    obtain ⟨z, _, rfl⟩ := List.mem_map.mp ha
    cases e
  have hren : renewed false d ⟨f.id, f.name, .none⟩ = x.sizes.map Article.new := by
    rw [renewed_none hk, recorded_sizes S]
  simp only [List.filter_cons, hw, decide_true, if_true, List.filter_nil, List.foldl_cons, List.foldl_nil, List.map_cons, List.map_nil,
    hren, hrec, Totals.with, Totals.without, sizeOf_new, numberOf_new] at ht
  refine ⟨?_, ?_, ?_⟩
  · rw [ht.1]; simp [Totals.add]
  · rw [ht.1]; simp [Totals.add]
  · rw [ht.2, h1]; simp

example : ∃ r, giveBack exDisk (addToHistory ⟨[exFile], [], ⟨0, 0, 0, 0, 0, 0⟩, 0⟩) = some r ∧
    r.2.current.success + r.2.current.failed + r.2.remaining = 90 := ⟨_, rfl, by decide +kernel⟩

/-- A parked file with the name of another file of the download: returning it removes that other file, although it was completely
downloaded. (Files of a download may have equal names: if more than two have the same name they are all added,
QueueCoordinator.cpp:452-460, and downloads may be merged.) -/
theorem return_removes_other :
    ∃ (d : Disk) (n : Nzb), (⟨4, "d", .success⟩ : Completed) ∈ n.completed ∧ d.out "d" = some 9 ∧
      ∃ r, giveBack d n = some r ∧ r.1.out "d" = none ∧ (⟨4, "d", .success⟩ : Completed) ∈ r.2.completed := by
  refine ⟨exDisk, { files := [], completed := [⟨4, "d", .success⟩, ⟨3, "d", .none⟩], totals := ⟨9, 0, 1, 0, 0, 0⟩, parked := 1 },
    by decide, rfl, _, rfl, by decide +kernel, by decide +kernel⟩

/-- The states of the files are changed before the queue is saved. If the program ends in between, the download is in the history as
before, but what is stored about its files is not: when it is retried again, its failed articles stay counted as failed. -/
theorem crash_counts_failed :
    ∃ (d : Disk) (n : Nzb), Stored d n.completed ∧ (retry true d n).2.current.failed = 0 ∧
      (retry true (retry true d n).1 n).2.current.failed > 0 := by
  refine ⟨exDisk, exNzb, exStored, by decide +kernel, by decide +kernel⟩

end Verif.HistoryRetry
