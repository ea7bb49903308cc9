import Verif.FeedHistory
import Verif.RecordProps
/-
C59: an item which a feed keeps listing is added to the queue at most once. C60: the time of the next update of
a feed. C61: what the first fetch of a feed adds. C62: the memory of the feeds survives a restart.
-/
namespace Verif.FeedHistory
open Verif.Text Verif.Record

/-! ### C59, specification -/

/-- The clock never goes backwards: each event happens at or after the time `t`, and before the events
after it; the items of a fetched feed are processed between its beginning and its end. -/
def Ordered : Int → List Ev → Prop
  | _, [] => True
  | t, .completed _ items now :: l =>
    t ≤ now ∧ (∀ its, items = some its → ∀ it ∈ its, t ≤ it.now ∧ it.now ≤ now) ∧ Ordered now l
  | t, .cleanup now :: l => t ≤ now ∧ Ordered now l
  | t, .url _ now :: l => t ≤ now ∧ Ordered now l

/-- The feed number `i` lists `u`, and its filter accepts it, each time the feed is fetched; and the
processing takes no longer than items are kept. -/
def Listed (days i : Nat) (u : Bytes) (evs : List Ev) : Prop :=
  ∀ items now, Ev.completed i items now ∈ evs →
    ∃ its, items = some its ∧ (∃ it ∈ its, it.url = u ∧ it.accepted = true) ∧
      ∀ it ∈ its, it.url = u → now - it.now ≤ days * 86400

/-! ### Lemmas -/

def urls (hist : List Entry) : List Bytes := hist.map (·.url)

theorem find_some {hist : List Entry} {u : Bytes} {e : Entry} (h : find hist u = some e) : u ∈ urls hist := by
  unfold find at h
  have h1 := List.mem_of_find?_eq_some h
  have h2 := List.find?_some h
  exact List.mem_map.mpr ⟨e, h1, by simpa using h2⟩

theorem find_none {hist : List Entry} {u : Bytes} (h : find hist u = none) : u ∉ urls hist := by
  unfold find at h
  rw [List.find?_eq_none] at h
  intro hm
  obtain ⟨e, he, rfl⟩ := List.mem_map.mp hm
  exact h e he (by simp)

theorem urls_change (g : Entry → Entry) (hg : ∀ e, (g e).url = e.url) (u : Bytes) (hist : List Entry) :
    urls (change g u hist) = urls hist := by
  induction hist with
  | nil => rfl
  | cons e l ih =>
    unfold change
    by_cases h : e.url = u
    · rw [if_pos h]; unfold urls; rw [List.map_cons, List.map_cons, hg]
    · rw [if_neg h]; unfold urls at *; rw [List.map_cons, List.map_cons, ih]

/-- The entries with this url were all changed (there is at most one); the others are the same. -/
theorem mem_change {g : Entry → Entry} {u : Bytes} {hist : List Entry} (hn : (urls hist).Nodup) {e : Entry}
    (h : e ∈ change g u hist) : (∃ d ∈ hist, d.url = u ∧ e = g d) ∨ (e ∈ hist ∧ e.url ≠ u) := by
  induction hist with
  | nil => exact nomatch h
  | cons d l ih =>
    unfold change at h
    unfold urls at hn
    rw [List.map_cons, List.nodup_cons] at hn
    by_cases hd : d.url = u
    · rw [if_pos hd] at h
      rcases List.mem_cons.mp h with h | h
      · exact Or.inl ⟨d, List.mem_cons_self, hd, h⟩
      · refine Or.inr ⟨List.mem_cons_of_mem _ h, ?_⟩
        intro he
        exact hn.1 (List.mem_map.mpr ⟨e, h, by rw [he, hd]⟩)
    · rw [if_neg hd] at h
      rcases List.mem_cons.mp h with h | h
      · exact Or.inr ⟨by rw [h]; exact List.mem_cons_self, by rw [h]; exact hd⟩
      · rcases ih hn.2 h with ⟨d', h1, h2⟩ | ⟨h1, h2⟩
        · exact Or.inl ⟨d', List.mem_cons_of_mem _ h1, h2⟩
        · exact Or.inr ⟨List.mem_cons_of_mem _ h1, h2⟩

theorem nodup_add {hist : List Entry} {e : Entry} (hn : (urls hist).Nodup) (h : e.url ∉ urls hist) :
    (urls (hist ++ [e])).Nodup := by
  unfold urls at *
  rw [List.map_append, List.nodup_append]
  refine ⟨hn, by simp, ?_⟩
  intro a ha b hb hab
  rw [List.map_singleton, List.mem_singleton] at hb
  rw [hab, hb] at ha
  exact h ha

theorem unique_url {hist : List Entry} (hn : (urls hist).Nodup) {d e : Entry} (hd : d ∈ hist) (he : e ∈ hist)
    (h : d.url = e.url) : d = e := by
  induction hist with
  | nil => exact nomatch hd
  | cons x l ih =>
    unfold urls at hn
    rw [List.map_cons, List.nodup_cons] at hn
    rcases List.mem_cons.mp hd with hd' | hd' <;> rcases List.mem_cons.mp he with he' | he'
    · rw [hd', he']
    · exact absurd (List.mem_map.mpr ⟨e, he', by rw [← h, hd']⟩) hn.1
    · exact absurd (List.mem_map.mpr ⟨d, hd', by rw [h, he']⟩) hn.1
    · exact ih hn.2 hd' he'

theorem urls_add (hist : List Entry) (e : Entry) : urls (hist ++ [e]) = urls hist ++ [e.url] := by
  unfold urls; rw [List.map_append]; rfl

/-- What processing one item does, seen from the url `u`. -/
theorem processItem_spec (ignore : Bool) (hist : List Entry) (it : Item) (hn : (urls hist).Nodup) (u : Bytes) :
    (urls (processItem ignore hist it).1).Nodup ∧
    (∀ v ∈ urls hist, v ∈ urls (processItem ignore hist it).1) ∧
    (u ∈ urls hist → u ∉ (processItem ignore hist it).2) ∧
    (processItem ignore hist it).2.count u ≤ 1 ∧
    (u ∈ (processItem ignore hist it).2 → u ∈ urls (processItem ignore hist it).1) ∧
    (it.accepted = true → it.url ∈ urls (processItem ignore hist it).1) ∧
    (∀ e ∈ (processItem ignore hist it).1, e.url = u →
      (it.accepted = true ∧ it.url = u ∧ e.lastSeen = it.now) ∨ (e ∈ hist ∧ ¬ (it.accepted = true ∧ it.url = u))) := by
  unfold processItem
  by_cases ha : it.accepted = true
  · rw [if_pos ha]
    cases hf : find hist it.url with
    | some x =>
      dsimp only
      have hmem := find_some hf
      have hu := urls_change (fun e => { e with lastSeen := it.now }) (fun _ => rfl) it.url hist
      refine ⟨by rw [hu]; exact hn, fun v hv => by rw [hu]; exact hv, fun _ h => (nomatch h), Nat.zero_le _,
        (fun h => (nomatch h)), fun _ => by rw [hu]; exact hmem, ?_⟩
      intro e he heu
      rcases mem_change hn he with ⟨d, _, hd, rfl⟩ | ⟨h1, h2⟩
      · exact Or.inl ⟨ha, hd.symm.trans heu, rfl⟩
      · exact Or.inr ⟨h1, fun h => h2 (heu.trans h.2.symm)⟩
    | none =>
      dsimp only
      have hmem := find_none hf
      have last : ∀ (st : Status) (e : Entry), e ∈ hist ++ [⟨it.url, st, it.now⟩] → e.url = u →
          (it.accepted = true ∧ it.url = u ∧ e.lastSeen = it.now) ∨ (e ∈ hist ∧ ¬ (it.accepted = true ∧ it.url = u)) := by
        intro st e he heu
        rcases List.mem_append.mp he with h | h
        · refine Or.inr ⟨h, fun h' => hmem (List.mem_map.mpr ⟨e, h, heu.trans h'.2.symm⟩)⟩
        · rw [List.mem_singleton] at h
          subst h
          exact Or.inl ⟨ha, heu, rfl⟩
      by_cases hi : ignore = true
      · rw [if_pos hi]
        dsimp only
        rw [urls_add]
        refine ⟨by rw [← urls_add]; exact nodup_add hn hmem, fun v hv => List.mem_append_left _ hv, fun _ h => (nomatch h),
          Nat.zero_le _, (fun h => (nomatch h)), fun _ => List.mem_append_right _ (List.mem_singleton.mpr rfl), last _⟩
      · rw [if_neg hi]
        dsimp only
        rw [urls_add]
        refine ⟨by rw [← urls_add]; exact nodup_add hn hmem, fun v hv => List.mem_append_left _ hv, ?_, ?_, ?_,
          fun _ => List.mem_append_right _ (List.mem_singleton.mpr rfl), last _⟩
        · intro hu h
          rw [List.mem_singleton] at h
          subst h; exact hmem hu
        · exact List.count_le_length
        · intro h; exact List.mem_append_right _ h
  · rw [if_neg ha]
    exact ⟨hn, fun v hv => hv, fun _ h => (nomatch h), Nat.zero_le _, (fun h => (nomatch h)), fun h => absurd h ha,
      fun e he _ => Or.inr ⟨he, fun h => ha h.1⟩⟩

theorem processItems_spec (ignore : Bool) (u : Bytes) : ∀ (items : List Item) (hist : List Entry),
    (urls hist).Nodup →
    (urls (processItems ignore hist items).1).Nodup ∧
    (∀ v ∈ urls hist, v ∈ urls (processItems ignore hist items).1) ∧
    (u ∈ urls hist → u ∉ (processItems ignore hist items).2) ∧
    (processItems ignore hist items).2.count u ≤ 1 ∧
    (u ∈ (processItems ignore hist items).2 → u ∈ urls (processItems ignore hist items).1) ∧
    (∀ it ∈ items, it.accepted = true → it.url ∈ urls (processItems ignore hist items).1) ∧
    (∀ e ∈ (processItems ignore hist items).1, e.url = u →
      (∃ it ∈ items, it.accepted = true ∧ it.url = u ∧ e.lastSeen = it.now) ∨
      (e ∈ hist ∧ ∀ it ∈ items, ¬ (it.accepted = true ∧ it.url = u))) := by
  intro items
  induction items with
  | nil =>
    intro hist hn
    exact ⟨hn, fun v hv => hv, fun _ h => (nomatch h), Nat.zero_le _, (fun h => (nomatch h)), (fun _ h => (nomatch h)),
      fun e he _ => Or.inr ⟨he, fun _ h => (nomatch h)⟩⟩
  | cons it items ih =>
    intro hist hn
    obtain ⟨a1, a2, a3, a4, a5, a6, a7⟩ := processItem_spec ignore hist it hn u
    obtain ⟨b1, b2, b3, b4, b5, b6, b7⟩ := ih (processItem ignore hist it).1 a1
    unfold processItems
    dsimp only
    refine ⟨b1, fun v hv => b2 v (a2 v hv), ?_, ?_, ?_, ?_, ?_⟩
    · intro hu h
      rcases List.mem_append.mp h with h | h
      · exact a3 hu h
      · exact b3 (a2 u hu) h
    · rw [List.count_append]
      by_cases hu : u ∈ (processItem ignore hist it).2
      · have : (processItems ignore (processItem ignore hist it).1 items).2.count u = 0 :=
          List.count_eq_zero.mpr (b3 (a5 hu))
        omega
      · have := List.count_eq_zero.mpr hu
        omega
    · intro h
      rcases List.mem_append.mp h with h | h
      · exact b2 u (a5 h)
      · exact b5 h
    · intro x hx hacc
      rcases List.mem_cons.mp hx with rfl | hx
      · exact b2 _ (a6 hacc)
      · exact b6 x hx hacc
    · intro e he heu
      rcases b7 e he heu with ⟨x, hx, hrest⟩ | ⟨h1, h2⟩
      · exact Or.inl ⟨x, List.mem_cons_of_mem _ hx, hrest⟩
      · rcases a7 e h1 heu with h | ⟨h, h'⟩
        · exact Or.inl ⟨it, List.mem_cons_self, h⟩
        · refine Or.inr ⟨h, ?_⟩
          intro x hx
          rcases List.mem_cons.mp hx with rfl | hx
          · exact h'
          · exact h2 x hx

/-- The date of the clean-up is not later than each last update. -/
theorem oldest_le (feeds : List Feed) : ∀ (now : Int), (∀ f ∈ feeds,
    feeds.foldl (fun o f => if f.lastUpdate < o then f.lastUpdate else o) now ≤ f.lastUpdate) ∧
    feeds.foldl (fun o f => if f.lastUpdate < o then f.lastUpdate else o) now ≤ now := by
  induction feeds with
  | nil => intro now; exact ⟨(fun _ h => (nomatch h)), Int.le_refl _⟩
  | cons f l ih =>
    intro now
    rw [List.foldl_cons]
    have := ih (if f.lastUpdate < now then f.lastUpdate else now)
    have h1 : (if f.lastUpdate < now then f.lastUpdate else now) ≤ f.lastUpdate ∧
        (if f.lastUpdate < now then f.lastUpdate else now) ≤ now := by split <;> omega
    refine ⟨?_, by omega⟩
    intro g hg
    rcases List.mem_cons.mp hg with rfl | hg
    · omega
    · exact this.1 g hg

theorem historySeconds_small (days : Nat) (h : days ≤ 24855) : historySeconds days = days * 86400 := by
  unfold historySeconds
  rw [Int.bmod_def]
  omega

/-- What is kept from one event to the next, for the url `u` and the feed `i`. -/
structure Inv (days i : Nat) (u : Bytes) (t : Int) (s : St) : Prop where
  nodup : (urls s.hist).Nodup
  past : ∀ f, s.feeds[i]? = some f → f.lastUpdate ≤ t
  seen : ∀ f, s.feeds[i]? = some f → ∀ e ∈ s.hist, e.url = u → f.lastUpdate ≤ e.lastSeen + days * 86400
  feed : ∃ f, s.feeds[i]? = some f

theorem getElem?_modify_ne {α : Type} (g : α → α) : ∀ (l : List α) (i j : Nat), i ≠ j → (l.modify i g)[j]? = l[j]? := by
  intro l i j h
  rw [List.getElem?_modify]
  simp [h]

theorem getElem?_modify_same {α : Type} (g : α → α) {l : List α} {i : Nat} {x : α} (h : l[i]? = some x) :
    (l.modify i g)[i]? = some (g x) := by
  rw [List.getElem?_modify]; simp [h]

/-- One event keeps the invariant, and adds `u` only if it was not known. -/
theorem step_inv {days i : Nat} {u : Bytes} {t : Int} {s : St} (hd : days ≤ 24855) (h : Inv days i u t s) (ev : Ev) (l : List Ev)
    (ho : Ordered t (ev :: l)) (hl : Listed days i u (ev :: l)) :
    ∃ t', Ordered t' l ∧ Inv days i u t' (step days s ev).1 ∧
      (u ∈ urls s.hist → u ∈ urls (step days s ev).1.hist ∧ u ∉ (step days s ev).2) ∧
      (step days s ev).2.count u ≤ 1 ∧ (u ∈ (step days s ev).2 → u ∈ urls (step days s ev).1.hist) := by
  obtain ⟨f, hf⟩ := h.feed
  have same : ∀ f', s.feeds[i]? = some f' → f' = f := fun f' h' => by rw [hf] at h'; injection h' with h'; exact h'.symm
  cases ev with
  | completed j items now =>
    obtain ⟨h1, h2, h3⟩ := ho
    refine ⟨now, h3, ?_⟩
    show Inv days i u now (completed s j items now).1 ∧ _
    simp only [step]
    cases hj : s.feeds[j]? with
    | none =>
      unfold completed
      rw [hj]
      dsimp only
      refine ⟨⟨h.nodup, fun f' h' => by have := h.past f' h'; omega, h.seen, h.feed⟩, fun hu => ⟨hu, fun h => (nomatch h)⟩,
        Nat.zero_le _, (fun h => (nomatch h))⟩
    | some g =>
      cases items with
      | none =>
        have hij : j ≠ i := by
          intro hij
          subst hij
          obtain ⟨_, he, _⟩ := hl none now List.mem_cons_self
          cases he
        unfold completed
        rw [hj]
        dsimp only
        refine ⟨⟨h.nodup, ?_, ?_, ?_⟩, fun hu => ⟨hu, fun h => (nomatch h)⟩, Nat.zero_le _, (fun h => (nomatch h))⟩
        · intro f' h'
          rw [getElem?_modify_ne _ _ _ _ hij] at h'
          have := h.past f' h'; omega
        · intro f' h'
          rw [getElem?_modify_ne _ _ _ _ hij] at h'
          exact h.seen f' h'
        · exact ⟨f, by rw [getElem?_modify_ne _ _ _ _ hij]; exact hf⟩
      | some its =>
        obtain ⟨b1, b2, b3, b4, b5, b6, b7⟩ :=
          processItems_spec (decide (g.lastUpdate = 0) && g.backlog) u its s.hist h.nodup
        have htimes := h2 its rfl
        unfold completed
        rw [hj]
        dsimp only
        refine ⟨⟨b1, ?_, ?_, ?_⟩, fun hu => ⟨b2 u hu, b3 hu⟩, b4, b5⟩
        · intro f' h'
          by_cases hij : j = i
          · subst hij
            rw [getElem?_modify_same _ hf] at h'
            injection h' with h'
            rw [← h']; exact Int.le_refl _
          · rw [getElem?_modify_ne _ _ _ _ hij] at h'
            have := h.past f' h'; omega
        · intro f' h' e he heu
          by_cases hij : j = i
          · subst hij
            rw [getElem?_modify_same _ hf] at h'
            injection h' with h'
            rw [← h']
            show now ≤ _
            obtain ⟨its', e1, ⟨x, hx, hxu, hxa⟩, e3⟩ := hl (some its) now List.mem_cons_self
            injection e1 with e1
            subst e1
            rcases b7 e he heu with ⟨y, hy, hya, hyu, hyt⟩ | ⟨_, hno⟩
            · have := e3 y hy hyu; omega
            · exact absurd ⟨hxa, hxu⟩ (hno x hx)
          · rw [getElem?_modify_ne _ _ _ _ hij] at h'
            rcases b7 e he heu with ⟨y, hy, hya, hyu, hyt⟩ | ⟨hm, _⟩
            · have := h.past f' h'
              have := htimes y hy
              omega
            · exact h.seen f' h' e hm heu
        · by_cases hij : j = i
          · subst hij
            exact ⟨_, getElem?_modify_same _ hf⟩
          · exact ⟨f, by rw [getElem?_modify_ne _ _ _ _ hij]; exact hf⟩
  | cleanup now =>
    obtain ⟨h1, h2⟩ := ho
    refine ⟨now, h2, ⟨?_, fun f' h' => by have := h.past f' h'; omega, ?_, h.feed⟩, ?_, Nat.zero_le _, (fun h => (nomatch h))⟩
    · unfold urls
      exact List.Sublist.nodup (List.Sublist.map _ List.filter_sublist) h.nodup
    · intro f' h' e he
      exact h.seen f' h' e (List.mem_filter.mp he).1
    · intro hu
      refine ⟨?_, fun h => (nomatch h)⟩
      obtain ⟨e, he, heu⟩ := List.mem_map.mp hu
      refine List.mem_map.mpr ⟨e, ?_, heu⟩
      show e ∈ s.hist.filter _
      rw [List.mem_filter]
      refine ⟨he, ?_⟩
      rw [decide_eq_true_eq]
      have hs := h.seen f hf e he heu
      unfold border
      rw [historySeconds_small days hd]
      have := (oldest_le s.feeds now).1 f (List.mem_of_getElem? hf)
      omega
  | url v now =>
    obtain ⟨h1, h2⟩ := ho
    refine ⟨now, h2, ?_⟩
    show Inv days i u now (urlCompleted s v now) ∧ (_ → u ∈ urls (urlCompleted s v now).hist ∧ _) ∧ _
    unfold urlCompleted
    cases hfv : find s.hist v with
    | some x =>
      dsimp only
      have hu := urls_change (fun e => { e with status := .fetched }) (fun _ => rfl) v s.hist
      refine ⟨⟨by rw [hu]; exact h.nodup, fun f' h' => by have := h.past f' h'; omega, ?_, h.feed⟩,
        fun hm => ⟨by rw [hu]; exact hm, fun h => (nomatch h)⟩, Nat.zero_le _, (fun h => (nomatch h))⟩
      intro f' h' e he heu
      rcases mem_change h.nodup he with ⟨d, hd, _, rfl⟩ | ⟨hm, _⟩
      · exact h.seen f' h' d hd heu
      · exact h.seen f' h' e hm heu
    | none =>
      dsimp only
      have hmem := find_none hfv
      refine ⟨⟨nodup_add h.nodup hmem, fun f' h' => by have := h.past f' h'; omega, ?_, h.feed⟩,
        fun hm => ⟨by rw [urls_add]; exact List.mem_append_left _ hm, fun h => (nomatch h)⟩, Nat.zero_le _, (fun h => (nomatch h))⟩
      intro f' h' e he heu
      rcases List.mem_append.mp he with hm | hm
      · exact h.seen f' h' e hm heu
      · rw [List.mem_singleton] at hm
        subst hm
        have := h.past f' h'
        show f'.lastUpdate ≤ now + _
        omega

theorem run_known {days i : Nat} {u : Bytes} (hd : days ≤ 24855) : ∀ (evs : List Ev) (t : Int) (s : St),
    Inv days i u t s → Ordered t evs → Listed days i u evs →
    (run days s evs).2.count u ≤ 1 ∧ (u ∈ urls s.hist → (run days s evs).2.count u = 0) := by
  intro evs
  induction evs with
  | nil => intro t s _ _ _; exact ⟨Nat.zero_le _, fun _ => rfl⟩
  | cons ev l ih =>
    intro t s h ho hl
    obtain ⟨t', ho', h', hkeep, hone, hin⟩ := step_inv hd h ev l ho hl
    have hl' : Listed days i u l := fun items now hm => hl items now (List.mem_cons_of_mem _ hm)
    obtain ⟨r1, r2⟩ := ih t' _ h' ho' hl'
    unfold run
    dsimp only
    rw [List.count_append]
    refine ⟨?_, ?_⟩
    · by_cases hu : u ∈ (step days s ev).2
      · have := r2 (hin hu); omega
      · have := List.count_eq_zero.mpr hu; omega
    · intro hu
      obtain ⟨k1, k2⟩ := hkeep hu
      have := List.count_eq_zero.mpr k2
      have := r2 k1
      omega

/-- **C59, proved part.** The clock does not go backwards and FeedHistory is at most 24855 days. A url
which a feed lists, accepted by its filter, each time the feed is fetched, is added to the queue at most
once - whatever the other feeds list, whatever urls are downloaded and however often the history is
cleaned up; and not at all if it is already known. Missing: larger values of FeedHistory, answers which
cannot be parsed and processing which takes longer than FeedHistory; for these the claim is false
(`huge_history_forgets`, `broken_feed_forgets`, `zero_history_forgets`). -/
theorem added_at_most_once_partial (days i : Nat) (u : Bytes) (t : Int) (s : St) (f : Feed) (evs : List Ev)
    (hd : days ≤ 24855) (hf : s.feeds[i]? = some f) (hp : f.lastUpdate ≤ t) (hn : (s.hist.map (·.url)).Nodup)
    (ho : Ordered t evs) (hl : Listed days i u evs) :
    (u ∉ s.hist.map (·.url) → (run days s evs).2.count u ≤ 1) ∧
    (∀ e ∈ s.hist, e.url = u → f.lastUpdate ≤ e.lastSeen + days * 86400 → u ∉ (run days s evs).2) := by
  constructor
  · intro hu
    refine (run_known hd evs t s ⟨hn, fun f' h' => ?_, fun f' h' e he heu => ?_, f, hf⟩ ho hl).1
    · rw [hf] at h'; injection h' with h'; rw [← h']; exact hp
    · exact absurd (List.mem_map.mpr ⟨e, he, heu⟩) hu
  · intro e he heu hle
    refine List.count_eq_zero.mp
      ((run_known hd evs t s ⟨hn, fun f' h' => ?_, fun f' h' e' he' heu' => ?_, f, hf⟩ ho hl).2
        (List.mem_map.mpr ⟨e, he, heu⟩))
    · rw [hf] at h'; injection h' with h'; rw [← h']; exact hp
    · rw [hf] at h'; injection h' with h'
      subst h'
      have : e' = e :=
         unique_url hn he' he (heu'.trans heu.symm)
      rw [this]; exact hle

/-- A feed fetched three times with clean-ups between, another feed listing the same url. -/
def exampleEvs : List Ev :=
  [.completed 0 (some [⟨[1], true, 1000⟩, ⟨[2], false, 1001⟩]) 1001, .cleanup 2000,
   .completed 1 (some [⟨[1], true, 700000⟩]) 700000, .cleanup 700001,
   .completed 0 (some [⟨[1], true, 1400000⟩, ⟨[2], true, 1400001⟩]) 1400001, .url [1] 1400005, .cleanup 1500000,
   .completed 0 (some [⟨[1], true, 9400000⟩]) 9400000]

example : Ordered 10 exampleEvs ∧ Listed 1 0 [1] exampleEvs ∧
    (run 1 ⟨[⟨[7], 0, false, 0⟩, ⟨[8], 0, false, 0⟩], []⟩ exampleEvs).2 = [[1], [2]] := by
  refine ⟨by simp [exampleEvs, Ordered], ?_, by decide +kernel⟩
  intro items now h
  simp only [exampleEvs, List.mem_cons, Ev.completed.injEq, reduceCtorEq, false_or, List.not_mem_nil, or_false] at h
  rcases h with ⟨_, rfl, rfl⟩ | ⟨h, _⟩ | ⟨_, rfl, rfl⟩ | ⟨_, rfl, rfl⟩
  · exact ⟨_, rfl, ⟨_, List.mem_cons_self, rfl, rfl⟩, by decide⟩
  · exact absurd h (by decide)
  · exact ⟨_, rfl, ⟨_, List.mem_cons_self, rfl, rfl⟩, by decide⟩
  · exact ⟨_, rfl, ⟨_, List.mem_cons_self, rfl, rfl⟩, by decide⟩

/-- **C59 is false** for large values of FeedHistory: with 30000 days, one minute after the url was
added it is forgotten and the next fetch adds it again. -/
theorem huge_history_forgets :
    (run 30000 ⟨[⟨[7], 0, false, 0⟩], []⟩
      [.completed 0 (some [⟨[1], true, 1700000000⟩]) 1700000000, .cleanup 1700000060,
       .completed 0 (some [⟨[1], true, 1700000900⟩]) 1700000900]).2 = [[1], [1]] := by decide +kernel

/-- **C59 is false** after answers which cannot be parsed: the feed counts as updated, so that after
FeedHistory days (here 7) everything is forgotten and added again when the feed works again. -/
theorem broken_feed_forgets :
    (run 7 ⟨[⟨[7], 0, false, 0⟩], []⟩
      [.completed 0 (some [⟨[1], true, 1700000000⟩]) 1700000000,
       .completed 0 none 1700604801, .cleanup 1700604802,
       .completed 0 (some [⟨[1], true, 1700605000⟩]) 1700605000]).2 = [[1], [1]] := by decide +kernel

/-- **C59 is false** with FeedHistory=0: the url is forgotten if the clock ticks while the feed is
processed. -/
theorem zero_history_forgets :
    (run 0 ⟨[⟨[7], 0, false, 0⟩], []⟩
      [.completed 0 (some [⟨[1], true, 1700000000⟩]) 1700000001, .cleanup 1700000002,
       .completed 0 (some [⟨[1], true, 1700000900⟩]) 1700000900]).2 = [[1], [1]] := by decide +kernel

/-! ### C61: new items and the first fetch -/

/-- **C61, proved part.** A fetched feed adds exactly the accepted items which are not known - in their
order, each once; at the first fetch of a feed with option Backlog it adds nothing. Afterwards all
accepted items are known. -/
theorem fetch_adds_new_partial (s : St) (i : Nat) (f : Feed) (items : List Item) (now : Int) (hf : s.feeds[i]? = some f)
    (hn : (s.hist.map (·.url)).Nodup) :
    let r := completed s i (some items) now
    (f.lastUpdate = 0 → f.backlog = true → r.2 = []) ∧
    (¬ (f.lastUpdate = 0 ∧ f.backlog = true) →
      ∀ u, (u ∈ r.2 ↔ u ∉ s.hist.map (·.url) ∧ ∃ it ∈ items, it.accepted = true ∧ it.url = u) ∧ r.2.count u ≤ 1) ∧
    (∀ it ∈ items, it.accepted = true → it.url ∈ r.1.hist.map (·.url)) := by
  dsimp only
  unfold completed
  rw [hf]
  dsimp only
  have spec := fun u => processItems_spec (decide (f.lastUpdate = 0) && f.backlog) u items s.hist hn
  refine ⟨?_, ?_, (spec []).2.2.2.2.2.1⟩
  · intro h1 h2
    have : ∀ (l : List Item) (hist : List Entry), (processItems true hist l).2 = [] := by
      intro l
      induction l with
      | nil => intro _; rfl
      | cons it l ih =>
        intro hist
        unfold processItems
        dsimp only
        rw [ih, List.append_nil]
        unfold processItem
        split
        · split <;> rfl
        · rfl
    rw [h1, h2]
    exact this _ _
  · intro hne u
    have hig : (decide (f.lastUpdate = 0) && f.backlog) = false := by
      rw [Bool.eq_false_iff]
      intro h
      rw [Bool.and_eq_true, decide_eq_true_eq] at h
      exact hne h
    rw [hig]
    have spec := hig ▸ spec u
    refine ⟨⟨fun hu => ⟨fun hk => spec.2.2.1 hk hu, ?_⟩, ?_⟩, spec.2.2.2.1⟩
    · -- only accepted items are added
      have : ∀ (l : List Item) (hist : List Entry), u ∈ (processItems false hist l).2 → ∃ it ∈ l, it.accepted = true ∧ it.url = u := by
        intro l
        induction l with
        | nil => intro _ h; exact nomatch h
        | cons it l ih =>
          intro hist h
          unfold processItems at h
          dsimp only at h
          rcases List.mem_append.mp h with h | h
          · unfold processItem at h
            split at h
            · rename_i ha
              split at h
              · exact nomatch h
              · rw [if_neg (by decide)] at h
                exact ⟨it, List.mem_cons_self, ha, (List.mem_singleton.mp h).symm⟩
            · exact nomatch h
          · obtain ⟨x, hx, hr⟩ := ih _ h
            exact ⟨x, List.mem_cons_of_mem _ hx, hr⟩
      exact this items s.hist hu
    · rintro ⟨hk, x, hx, ha, hxu⟩
      have : ∀ (l : List Item) (hist : List Entry), u ∉ urls hist → (∃ it ∈ l, it.accepted = true ∧ it.url = u) →
          u ∈ (processItems false hist l).2 := by
        intro l
        induction l with
        | nil => rintro _ _ ⟨_, h, _⟩; exact nomatch h
        | cons it l ih =>
          rintro hist hu ⟨x, hx, ha, hxu⟩
          unfold processItems
          dsimp only
          by_cases hi : it.accepted = true ∧ it.url = u
          · refine List.mem_append_left _ ?_
            unfold processItem
            rw [if_pos hi.1]
            cases hf : find hist it.url with
            | some _ => exact absurd (hi.2 ▸ find_some hf) hu
            | none => dsimp only; rw [if_neg (by decide)]; exact List.mem_singleton.mpr hi.2.symm
          · refine List.mem_append_right _ (ih _ ?_ ?_)
            · unfold processItem
              split
              · rename_i hacc
                have hne : it.url ≠ u := fun h => hi ⟨hacc, h⟩
                split
                · dsimp only
                  rw [urls_change (fun e => { e with lastSeen := it.now }) (fun _ => rfl)]
                  exact hu
                · rw [if_neg (by decide)]
                  dsimp only
                  rw [urls_add]
                  intro h
                  rcases List.mem_append.mp h with h | h
                  · exact hu h
                  · exact hne (List.mem_singleton.mp h).symm
              · exact hu
            · rcases List.mem_cons.mp hx with rfl | hx
              · exact absurd ⟨ha, hxu⟩ hi
              · exact ⟨x, hx, ha, hxu⟩
      exact this items s.hist hk ⟨x, hx, ha, hxu⟩

/-- **C61 is false** if the answer to the first fetch cannot be parsed: the next fetch is not the first
one any more, and with option Backlog all unknown items - which should have been ignored - are added. -/
theorem backlog_after_broken_fetch (s : St) (i : Nat) (f : Feed) (items : List Item) (t now : Int)
    (hf : s.feeds[i]? = some f) (hb : f.backlog = true) (h0 : f.lastUpdate = 0) (ht : t ≠ 0)
    (hn : (s.hist.map (·.url)).Nodup) (u : Bytes) (hu : u ∉ s.hist.map (·.url))
    (hi : ∃ it ∈ items, it.accepted = true ∧ it.url = u) :
    (completed s i (some items) now).2 = [] ∧
    u ∈ (completed (completed s i none t).1 i (some items) now).2 := by
  refine ⟨(fetch_adds_new_partial s i f items now hf hn).1 h0 hb, ?_⟩
  have hf' : (completed s i none t).1.feeds[i]? = some { f with lastUpdate := t } := by
    unfold completed
    rw [hf]
    dsimp only
    exact getElem?_modify_same _ hf
  have hh : (completed s i none t).1.hist = s.hist := by unfold completed; rw [hf]
  have := (fetch_adds_new_partial (completed s i none t).1 i _ items now hf' (by rw [hh]; exact hn)).2.1
    (fun h => ht h.1) u
  rw [hh] at this
  exact this.1.mpr ⟨hu, hi⟩

example : (completed ⟨[⟨[7], 0, true, 0⟩], []⟩ 0 (some [⟨[1], true, 50⟩, ⟨[2], false, 50⟩, ⟨[3], true, 51⟩]) 51).2 = [] ∧
    (completed ⟨[⟨[7], 0, true, 40⟩], [⟨[3], .backlog, 3⟩]⟩ 0 (some [⟨[1], true, 50⟩, ⟨[2], false, 50⟩, ⟨[3], true, 51⟩, ⟨[1], true, 51⟩]) 51).2
      = [[1]] := by decide +kernel

/-- A configured feed which was never fetched successfully keeps everything in the history for ever. -/
theorem unfetched_feed_stops_cleanup (days : Nat) (s : St) (now : Int) (hd : days ≤ 24855)
    (hf : ∃ f ∈ s.feeds, f.lastUpdate = 0) (ht : ∀ e ∈ s.hist, 0 ≤ e.lastSeen) : cleanup days s now = s := by
  obtain ⟨f, hf, h0⟩ := hf
  unfold cleanup
  have : s.hist.filter (fun e => decide (¬ e.lastSeen < border days s now)) = s.hist := by
    rw [List.filter_eq_self]
    intro e he
    rw [decide_eq_true_eq]
    have := ht e he
    have h1 := (oldest_le s.feeds now).1 f hf
    unfold border
    rw [historySeconds_small days hd]
    omega
  rw [this]

example : cleanup 7 ⟨[⟨[7], 0, true, 0⟩, ⟨[8], 0, true, 1900000000⟩], [⟨[3], .backlog, 3⟩]⟩ 2000000000 =
    ⟨[⟨[7], 0, true, 0⟩, ⟨[8], 0, true, 1900000000⟩], [⟨[3], .backlog, 3⟩]⟩ :=
  unfetched_feed_stops_cleanup 7 _ _ (by omega) ⟨_, List.mem_cons_self, rfl⟩ (by simp)

/-! ### C60: the time of the next update -/

/-- The value of `m_lastInterval` after the given results. -/
def lastOf (interval : Nat) : Nat → List Bool → Nat
  | last, [] => last
  | last, ok :: l => lastOf interval (nextUpdate interval last ok).1 l

theorem delays_append (interval : Nat) : ∀ (l r : List Bool) (last : Nat),
    delays interval last (l ++ r) = delays interval last l ++ delays interval (lastOf interval last l) r := by
  intro l
  induction l with
  | nil => intro r last; rfl
  | cons ok l ih => intro r last; rw [List.cons_append, delays, ih, delays, lastOf]; rfl

theorem lastOf_append (interval : Nat) : ∀ (l r : List Bool) (last : Nat),
    lastOf interval last (l ++ r) = lastOf interval (lastOf interval last l) r := by
  intro l
  induction l with
  | nil => intro r last; rfl
  | cons ok l ih => intro r last; rw [List.cons_append, lastOf, ih, lastOf]

theorem lastOf_failures (interval n : Nat) :
    lastOf interval 0 (List.replicate (n + 1) false) = min (60 * 2 ^ n) (interval * 60) := by
  induction n with
  | zero => show min (max (0 * 2) 60) (interval * 60) = _; rw [Nat.pow_zero]; omega
  | succ n ih =>
    rw [List.replicate_succ', lastOf_append, ih]
    show min (max (min (60 * 2 ^ n) (interval * 60) * 2) 60) (interval * 60) = _
    rw [Nat.pow_succ]
    have : 0 < 2 ^ n := Nat.two_pow_pos n
    generalize 2 ^ n = x at *
    omega

theorem lastOf_start (interval : Nat) (pre : List Bool) (hp : pre = [] ∨ pre.getLast? = some true) :
    lastOf interval 0 pre = 0 := by
  rcases hp with rfl | hp
  · rfl
  · obtain ⟨l, rfl⟩ := List.getLast?_eq_some_iff.mp hp
    rw [lastOf_append]; rfl

/-- **C60.** Whatever happened before: after a successful fetch the next one is scheduled for FeedX.Interval
minutes later; after the first, second, third, ... failure in a row for 1, 2, 4, ... minutes later, but never more
than FeedX.Interval. -/
theorem retry_delay (interval n : Nat) (pre : List Bool) (hp : pre = [] ∨ pre.getLast? = some true) :
    (delays interval 0 (pre ++ [true])).getLast? = some (interval * 60) ∧
    (delays interval 0 (pre ++ List.replicate n false ++ [false])).getLast? = some (min (60 * 2 ^ n) (interval * 60)) := by
  constructor
  · rw [delays_append, List.getLast?_append]; rfl
  · rw [delays_append, List.getLast?_append, lastOf_append, lastOf_start interval pre hp]
    have h : (nextUpdate interval (lastOf interval 0 (List.replicate n false)) false).2 =
        lastOf interval 0 (List.replicate (n + 1) false) := by
      rw [List.replicate_succ', lastOf_append]; rfl
    show Option.or (some (nextUpdate interval (lastOf interval 0 (List.replicate n false)) false).2) _ = _
    rw [h, lastOf_failures]
    rfl

example : delays 30 0 [true, false, false, false, false, false, false, false, true, false] =
    [1800, 60, 120, 240, 480, 960, 1800, 1800, 1800, 60] := by decide +kernel

/-- **C60.** As long as the clock does not go backwards the feed is fetched as soon as the scheduled time is
reached, and not before. If the clock was set back by more than the rest of the interval, it is fetched at once. -/
theorem fetched_when_due (interval d : Nat) (t now : Int) (hi : 0 < interval) (hd : d ≤ interval * 60) (ht : 0 < t) :
    (t ≤ now → (due interval (t + d) now = true ↔ t + d ≤ now)) ∧
    (now + interval * 60 < t + d → due interval (t + d) now = true) := by
  unfold due
  have h0 : ¬ (t + (d : Int) = 0) := by omega
  simp only [Bool.and_eq_true, Bool.or_eq_true, decide_eq_true_eq]
  constructor
  · intro h
    omega
  · intro h
    omega

example : due 30 (1700000000 + 60) 1700000059 = false ∧ due 30 (1700000000 + 60) 1700000060 = true ∧
    due 30 (1700000000 + 60) 1600000060 = true := by decide +kernel

/-! ### C62: restart -/

structure Savable (s : St) : Prop where
  feedUrl : ∀ f ∈ s.feeds, FitsShort f.url
  url : ∀ e ∈ s.hist, FitsShort e.url
  feedTime : ∀ f ∈ s.feeds, -2 ^ 31 ≤ f.lastUpdate ∧ f.lastUpdate < 2 ^ 31
  time : ∀ e ∈ s.hist, -2 ^ 31 ≤ e.lastSeen ∧ e.lastSeen < 2 ^ 31
  few : s.feeds.length < 2 ^ 31 ∧ s.hist.length < 2 ^ 31
  distinct : (s.feeds.map (fun f => (f.url, f.hash))).Nodup

theorem time32_back (t : Int) (h1 : -2 ^ 31 ≤ t) (h2 : t < 2 ^ 31) : (time32 t).toInt = t := by
  unfold time32
  rw [BitVec.toInt_ofInt, Int.bmod_def]
  omega

theorem statusOf_code (st : Status) : statusOf (BitVec.ofNat 32 (statusCode st)) = st := by
  cases st <;> decide

theorem loadFeed_file (f : Feed) (ls : List Bytes) (rest : Bytes) (hu : FitsShort f.url)
    (ht : -2 ^ 31 ≤ f.lastUpdate ∧ f.lastUpdate < 2 ^ 31) :
    loadFeed (file (saveFeed f ++ ls) rest) = some ((f.url, f.hash, f.lastUpdate), file ls rest) := by
  unfold loadFeed saveFeed
  simp only [List.cons_append, List.nil_append]
  rw [readLine_file _ _ _ _ hu.1 (by have := hu.2; omega)]
  simp only [Option.bind_eq_bind, Option.bind_some]
  rw [scanLine_file [.u] _ _ _ rfl (by simp)]
  simp only [List.map_cons, List.map_nil, Option.bind_some]
  rw [scanLine_file [.i] _ _ _ rfl (by simp)]
  simp only [List.map_cons, List.map_nil, Option.bind_some, time32_back _ ht.1 ht.2]

theorem loadEntry_file (e : Entry) (ls : List Bytes) (rest : Bytes) (hu : FitsShort e.url)
    (ht : -2 ^ 31 ≤ e.lastSeen ∧ e.lastSeen < 2 ^ 31) :
    loadEntry (file (saveEntry e ++ ls) rest) = some (e, file ls rest) := by
  unfold loadEntry saveEntry
  simp only [List.cons_append, List.nil_append]
  rw [scanLine_file [.i, .i] _ _ _ rfl (by simp)]
  simp only [List.map_cons, List.map_nil, Option.bind_eq_bind, Option.bind_some]
  rw [readLine_file _ _ _ _ hu.1 (by have := hu.2; omega)]
  simp only [Option.bind_some, time32_back _ ht.1 ht.2, statusOf_code]

/-- Each feed gets its own time back. -/
theorem assign_all (config : Feed → Feed) (hc : ∀ f, config f = { f with lastUpdate := 0 }) : ∀ (todo done : List Feed),
    ((done ++ todo).map (fun f => (f.url, f.hash))).Nodup →
    (todo.map (fun f => (f.url, f.hash, f.lastUpdate))).foldl assign (done ++ todo.map config) = done ++ todo := by
  intro todo
  induction todo with
  | nil => intro done _; simp
  | cons f l ih =>
    intro done hn
    have hstep : assign (done ++ (f :: l).map config) (f.url, f.hash, f.lastUpdate) = (done ++ [f]) ++ l.map config := by
      unfold assign
      rw [List.map_append, List.map_cons, List.map_cons]
      rw [List.map_append, List.map_cons, List.nodup_append, List.nodup_cons] at hn
      obtain ⟨_, ⟨hfl, _⟩, hdis⟩ := hn
      have h1 : ∀ l' : List Feed, (∀ g ∈ l', (g.url, g.hash) ≠ (f.url, f.hash)) →
          l'.map (fun g => if g.url = f.url ∧ g.hash = f.hash then { g with lastUpdate := f.lastUpdate } else g) = l' := by
        intro l' h
        conv => rhs; rw [← List.map_id l']
        apply List.map_congr_left
        intro g hg
        rw [if_neg]
        · rfl
        · rintro ⟨a, b⟩; exact h g hg (by rw [a, b])
      rw [h1 done, h1 (l.map config)]
      · rw [hc f]
        simp
      · intro g hg
        obtain ⟨g', hg', rfl⟩ := List.mem_map.mp hg
        rw [hc g']
        intro he
        exact hfl (List.mem_map.mpr ⟨g', hg', he⟩)
      · intro g hg he
        exact hdis _ (List.mem_map.mpr ⟨g, hg, rfl⟩) _ List.mem_cons_self he
    show List.foldl assign (assign (done ++ (f :: l).map config) (f.url, f.hash, f.lastUpdate)) (l.map _) = _
    rw [hstep, ih (done ++ [f]) (by rw [List.append_assoc]; exact hn), List.append_assoc]
    rfl

/-- **C62, proved part.** What the program knows about the feeds is written and, after a restart with the
same configured feeds, read back completely: the history, and for every feed the time of its last
update. Missing: urls of more than 1022 bytes (`long_url_forgotten`, `longer_url_undefined`) or with
line breaks, times after January 2038, and two feeds with the same url and filter. -/
theorem feeds_survive_restart_partial (s : St) (h : Savable s) :
    ∃ b, save s = some b ∧ load (s.feeds.map (fun f => { f with lastUpdate := 0 })) b = some s := by
  have lens : ∀ l ∈ (countLine s.feeds.length :: s.feeds.flatMap saveFeed) ++
      (countLine s.hist.length :: s.hist.flatMap saveEntry), l.length < 1024 := by
    have num : ∀ xs : List (Conv × I32), xs.length ≤ 80 → (showNums xs).length < 1024 := by
      intro xs hx; have := length_showNums xs; omega
    intro l hl
    simp only [List.mem_append, List.mem_cons, List.mem_flatMap] at hl
    rcases hl with (rfl | ⟨f, hf, hl⟩) | (rfl | ⟨e, he, hl⟩)
    · exact num _ (by simp)
    · simp only [saveFeed, List.mem_cons, List.not_mem_nil, or_false] at hl
      rcases hl with rfl | rfl | rfl
      · have := (h.feedUrl f hf).2; omega
      · exact num _ (by simp)
      · exact num _ (by simp)
    · exact num _ (by simp)
    · simp only [saveEntry, List.mem_cons, List.not_mem_nil, or_false] at hl
      rcases hl with rfl | rfl
      · exact num _ (by simp)
      · have := (h.url e he).2; omega
  obtain ⟨b, hb⟩ := printLines_ok _ lens
  refine ⟨b, hb, ?_⟩
  have hfile := (printLines_some _ _ hb).2 []
  rw [List.append_nil] at hfile
  unfold load
  rw [hfile, List.cons_append]
  rw [readList_file loadFeed saveFeed (fun f => (f.url, f.hash, f.lastUpdate)) s.feeds _ [] h.few.1
    (fun f hf ls => loadFeed_file f ls [] (h.feedUrl f hf) (h.feedTime f hf))]
  have := readList_file loadEntry saveEntry (fun e => e) s.hist [] [] h.few.2
    (fun e he ls => loadEntry_file e ls [] (h.url e he) (h.time e he))
  rw [List.append_nil] at this
  dsimp only
  rw [this]
  have ha := assign_all (fun f => { f with lastUpdate := 0 }) (fun _ => rfl) s.feeds [] (by rw [List.nil_append]; exact h.distinct)
  rw [List.nil_append, List.nil_append] at ha
  rw [Option.map_some, ha]
  simp

/-- Two feeds (one with a changed filter) and two entries. -/
example : Savable ⟨[⟨[104, 58, 47, 47, 97], 5, true, 1700000000⟩, ⟨[104, 58, 47, 47, 97], 6, false, 0⟩],
    [⟨[104, 58, 47, 47, 97, 47, 49], .backlog, 1600000000⟩, ⟨[], .fetched, 1600000001⟩]⟩ := by
  have h1 : FitsShort ([104, 58, 47, 47, 97]) := by unfold FitsShort OneLine; decide +kernel
  have h2 : FitsShort ([104, 58, 47, 47, 97, 47, 49]) := by unfold FitsShort OneLine; decide +kernel
  have h3 : FitsShort [] := by unfold FitsShort OneLine; decide +kernel
  refine ⟨?_, ?_, ?_, ?_, by simp, by decide +kernel⟩
  · intro f hf
    simp only [List.mem_cons, List.not_mem_nil, or_false] at hf
    rcases hf with rfl | rfl <;> exact h1
  · intro e he
    simp only [List.mem_cons, List.not_mem_nil, or_false] at he
    rcases he with rfl | rfl
    · exact h2
    · exact h3
  · intro f hf
    simp only [List.mem_cons, List.not_mem_nil, or_false] at hf
    rcases hf with rfl | rfl <;> decide
  · intro e he
    simp only [List.mem_cons, List.not_mem_nil, or_false] at he
    rcases he with rfl | rfl <;> decide

/-- **C62 is false** for urls of 1023 bytes: the last byte is lost, so the item is not known after the
restart and is added again. -/
theorem long_url_forgotten (u : Bytes) (h : OneLine u) (hl : u.length = 1023) (now : Int) :
    ∃ b, save ⟨[⟨[7], 0, false, 1⟩], [⟨u, .fetched, 1⟩]⟩ = some b ∧
      load [⟨[7], 0, false, 0⟩] b = some ⟨[⟨[7], 0, false, 1⟩], [⟨u.take 1022, .fetched, 1⟩]⟩ ∧
      (completed ⟨[⟨[7], 0, false, 1⟩], [⟨u.take 1022, .fetched, 1⟩]⟩ 0 (some [⟨u, true, now⟩]) now).2 = [u] := by
  have hne : u.take 1022 ≠ u := by
    intro e
    have := congrArg List.length e
    rw [List.length_take] at this
    omega
  have num : ∀ xs : List (Conv × I32), xs.length ≤ 80 → (showNums xs).length < 1024 := by
    intro xs hx; have := length_showNums xs; omega
  have lens : ∀ l ∈ (countLine 1 :: saveFeed ⟨[7], 0, false, 1⟩) ++ (countLine 1 :: saveEntry ⟨u, .fetched, 1⟩),
      l.length < 1024 := by
    intro l hl'
    simp only [saveFeed, saveEntry, List.mem_append, List.mem_cons, List.not_mem_nil, or_false] at hl'
    rcases hl' with (rfl | rfl | rfl | rfl) | (rfl | rfl | rfl)
    · exact num _ (by simp)
    · simp
    · exact num _ (by simp)
    · exact num _ (by simp)
    · exact num _ (by simp)
    · exact num _ (by simp)
    · omega
  obtain ⟨b, hb⟩ := printLines_ok _ lens
  refine ⟨b, by simpa [save] using hb, ?_, ?_⟩
  · have hfile := (printLines_some _ _ hb).2 []
    rw [List.append_nil] at hfile
    unfold load
    rw [hfile, List.cons_append]
    have h7 : FitsShort [7] := by unfold FitsShort OneLine; decide
    have r1 := readList_file loadFeed saveFeed (fun f => (f.url, f.hash, f.lastUpdate)) [⟨[7], 0, false, 1⟩]
      (countLine 1 :: saveEntry ⟨u, .fetched, 1⟩) [] (by decide)
      (fun f hf ls => by
        rw [List.mem_singleton] at hf
        subst hf
        exact loadFeed_file _ ls [] h7 ⟨by decide, by decide⟩)
    simp only [List.flatMap_cons, List.flatMap_nil, List.append_nil, List.length_singleton] at r1
    rw [r1]
    have r2 := readList_file loadEntry saveEntry (fun e => { e with url := e.url.take 1022 }) [⟨u, .fetched, 1⟩] [] [] (by show 1 < 2 ^ 31; decide)
      (fun e he ls => by
        rw [List.mem_singleton] at he
        subst he
        unfold loadEntry saveEntry
        simp only [List.cons_append, List.nil_append]
        rw [scanLine_file [.i, .i] _ _ _ rfl (by simp)]
        simp only [List.map_cons, List.map_nil, Option.bind_eq_bind, Option.bind_some]
        have : readLine 1024 (file (u :: ls) []) = some (u.take 1022, file ls []) :=
          readLine_long u (file ls []) 1024 h (by omega) (by omega)
        rw [this]
        simp only [Option.bind_some, time32_back 1 (by decide) (by decide), statusOf_code])
    simp only [List.flatMap_cons, List.flatMap_nil, List.append_nil, List.length_singleton] at r2
    dsimp only
    rw [r2]
    rfl
  · unfold completed
    dsimp only [List.getElem?_cons_zero]
    unfold processItems processItem find
    have : (u.take 1022 == u) = false := by simpa using hne
    simp [this, processItems]

/-- Such a url exists. -/
example : OneLine (List.replicate 1023 97) ∧ (List.replicate 1023 (97 : UInt8)).length = 1023 := by
  refine ⟨?_, List.length_replicate⟩
  intro h
  exact absurd (List.eq_of_mem_replicate h) (by decide)

/-- **C62**: a url of 1024 or more bytes in a feed makes the program write beyond the end of a buffer on the
stack when the state is saved. -/
theorem longer_url_undefined (s : St) (e : Entry) (he : e ∈ s.hist) (h : 1024 ≤ e.url.length) : save s = none := by
  refine printLines_none _ e.url ?_ h
  refine List.mem_append_right _ (List.mem_cons_of_mem _ (List.mem_flatMap.mpr ⟨e, he, ?_⟩))
  simp [saveEntry]

/-! ### C63: a fetched item reaches the queue -/

/-- Every url which the program remembers as fetched is in the queue or about to be put there. -/
def NothingLost (s : Sys) : Prop :=
  (∀ e ∈ s.mem.hist, e.status = .fetched → e.url ∈ s.queued ∨ e.url ∈ s.pending)

/-- The state is saved, and the program crashes, only when nothing is about to be put into the queue. -/
def Calm : Bool → List Act → Prop
  | _, [] => True
  | _, .completed _ _ _ :: l => Calm false l
  | _, .enqueue :: l => Calm true l
  | ok, .save :: l => ok = true ∧ Calm ok l
  | ok, .crash :: l => ok = true ∧ Calm ok l

theorem processItem_fetched (ignore : Bool) (hist : List Entry) (it : Item) :
    ∀ e ∈ (processItem ignore hist it).1, e.status = .fetched →
      (∃ d ∈ hist, d.url = e.url ∧ d.status = .fetched) ∨ e.url ∈ (processItem ignore hist it).2 := by
  intro e he hs
  unfold processItem at he ⊢
  split at he
  · rename_i ha
    rw [if_pos ha]
    cases hf : find hist it.url with
    | some x =>
      rw [hf] at he
      dsimp only at he ⊢
      left
      have : ∀ (l : List Entry), e ∈ change (fun e => { e with lastSeen := it.now }) it.url l →
          ∃ d ∈ l, d.url = e.url ∧ d.status = e.status := by
        intro l
        induction l with
        | nil => intro h; exact nomatch h
        | cons d l ih =>
          intro h
          unfold change at h
          split at h
          · rcases List.mem_cons.mp h with h | h
            · exact ⟨d, List.mem_cons_self, by rw [h], by rw [h]⟩
            · exact ⟨e, List.mem_cons_of_mem _ h, rfl, rfl⟩
          · rcases List.mem_cons.mp h with h | h
            · exact ⟨d, List.mem_cons_self, by rw [h], by rw [h]⟩
            · obtain ⟨d', h1, h2⟩ := ih h
              exact ⟨d', List.mem_cons_of_mem _ h1, h2⟩
      obtain ⟨d, h1, h2, h3⟩ := this hist he
      exact ⟨d, h1, h2, h3.trans hs⟩
    | none =>
      rw [hf] at he
      dsimp only at he ⊢
      split at he
      · rename_i hi
        rw [if_pos hi]
        dsimp only at he
        rcases List.mem_append.mp he with h | h
        · exact Or.inl ⟨e, h, rfl, hs⟩
        · rw [List.mem_singleton.mp h] at hs
          exact nomatch hs
      · rename_i hi
        rw [if_neg hi]
        dsimp only at he ⊢
        rcases List.mem_append.mp he with h | h
        · exact Or.inl ⟨e, h, rfl, hs⟩
        · rw [List.mem_singleton.mp h]
          exact Or.inr (List.mem_singleton.mpr rfl)
  · exact Or.inl ⟨e, he, rfl, hs⟩

theorem processItems_fetched (ignore : Bool) : ∀ (items : List Item) (hist : List Entry),
    ∀ e ∈ (processItems ignore hist items).1, e.status = .fetched →
      (∃ d ∈ hist, d.url = e.url ∧ d.status = .fetched) ∨ e.url ∈ (processItems ignore hist items).2 := by
  intro items
  induction items with
  | nil => intro hist e he hs; exact Or.inl ⟨e, he, rfl, hs⟩
  | cons it items ih =>
    intro hist e he hs
    unfold processItems at he ⊢
    dsimp only at he ⊢
    rcases ih _ e he hs with ⟨d, hd, hu, hds⟩ | h
    · rcases processItem_fetched ignore hist it d hd hds with ⟨d', h1, h2, h3⟩ | h
      · exact Or.inl ⟨d', h1, h2.trans hu, h3⟩
      · exact Or.inr (List.mem_append_left _ (hu ▸ h))
    · exact Or.inr (List.mem_append_right _ h)

theorem completed_fetched (s : St) (i : Nat) (items : Option (List Item)) (now : Int) :
    ∀ e ∈ (completed s i items now).1.hist, e.status = .fetched →
      (∃ d ∈ s.hist, d.url = e.url ∧ d.status = .fetched) ∨ e.url ∈ (completed s i items now).2 := by
  intro e he hs
  unfold completed at he ⊢
  cases hf : s.feeds[i]? with
  | none => rw [hf] at he; exact Or.inl ⟨e, he, rfl, hs⟩
  | some f =>
    rw [hf] at he
    dsimp only at he ⊢
    cases items with
    | none => exact Or.inl ⟨e, he, rfl, hs⟩
    | some l => exact processItems_fetched _ l _ e he hs

theorem calm_acts : ∀ (l : List Act) (s : Sys) (ok : Bool), Calm ok l → NothingLost s →
    (∀ e ∈ s.disk.hist, e.status = .fetched → e.url ∈ s.queued) → (ok = true → s.pending = []) → NothingLost (acts s l) := by
  intro l
  induction l with
  | nil => intro s ok _ h _ _; exact h
  | cons a l ih =>
    intro s ok hc h hd hp
    show NothingLost (acts (act s a) l)
    cases a with
    | completed i items now =>
      refine ih _ false hc ?_ hd (fun h => (nomatch h))
      intro e he hs
      rcases completed_fetched s.mem i items now e he hs with ⟨d, h1, h2, h3⟩ | h'
      · rcases h d h1 h3 with h' | h'
        · exact Or.inl (h2 ▸ h')
        · exact Or.inr (List.mem_append_left _ (h2 ▸ h'))
      · exact Or.inr (List.mem_append_right _ h')
    | enqueue =>
      refine ih _ true hc ?_ ?_ (fun _ => rfl)
      · intro e he hs
        rcases h e he hs with h' | h'
        · exact Or.inl (List.mem_append_left _ h')
        · exact Or.inl (List.mem_append_right _ h')
      · intro e he hs; exact List.mem_append_left _ (hd e he hs)
    | save =>
      refine ih _ ok hc.2 h ?_ hp
      intro e he hs
      rcases h e he hs with h' | h'
      · exact h'
      · rw [hp hc.1] at h'; exact nomatch h'
    | crash =>
      refine ih _ ok hc.2 ?_ hd (fun _ => rfl)
      intro e he hs
      exact Or.inl (hd e he hs)

/-- **C63, proved part.** If the state of the feeds is saved, and the program crashes, only when the new
items of a fetched feed have been put into the queue, then every item remembered as fetched is in
the queue. Missing: the program does not keep to this order (`crash_loses_item`). -/
theorem fetched_reaches_queue_partial (feeds : List Feed) (l : List Act) (h : Calm true l) :
    ∀ e ∈ (acts ⟨⟨feeds, []⟩, [], [], ⟨feeds, []⟩⟩ (l ++ [.enqueue])).mem.hist, e.status = .fetched →
      e.url ∈ (acts ⟨⟨feeds, []⟩, [], [], ⟨feeds, []⟩⟩ (l ++ [.enqueue])).queued := by
  intro e he hs
  have hN := calm_acts l ⟨⟨feeds, []⟩, [], [], ⟨feeds, []⟩⟩ true h (fun _ h => (nomatch h)) (fun _ h => (nomatch h)) (fun _ => rfl)
  unfold acts at *
  rw [List.foldl_append] at he ⊢
  rcases hN e he hs with h' | h'
  · exact List.mem_append_left _ h'
  · exact List.mem_append_right _ h'

example : Calm true [.completed 0 (some [⟨[1], true, 5⟩]) 5, .enqueue, .save, .crash, .completed 0 (some [⟨[2], true, 7⟩]) 8] := by
  simp [Calm]

/-- **C63 is false**: the state is saved by another thread, possibly between the processing of the feed and
the additions to the queue. After a crash at this point the item is remembered as fetched, is not in
the queue, and is not added by any later fetch. -/
theorem crash_loses_item (f : Feed) (u : Bytes) (t now : Int) (h : ¬ (f.lastUpdate = 0 ∧ f.backlog = true)) :
    let s := acts ⟨⟨[f], []⟩, [], [], ⟨[f], []⟩⟩ [.completed 0 (some [⟨u, true, t⟩]) now, .save, .crash]
    (∃ e ∈ s.mem.hist, e.url = u ∧ e.status = .fetched) ∧ s.queued = [] ∧ s.pending = [] ∧
    ∀ items now', u ∉ (completed s.mem 0 items now').2 := by
  have hig : (decide (f.lastUpdate = 0) && f.backlog) = false := by
    rw [Bool.eq_false_iff]
    intro h'
    rw [Bool.and_eq_true, decide_eq_true_eq] at h'
    exact h h'
  have hm : (completed ⟨[f], []⟩ 0 (some [⟨u, true, t⟩]) now).1 =
      ⟨[{ f with lastUpdate := now }], [⟨u, .fetched, t⟩]⟩ := by
    unfold completed
    simp only [List.getElem?_cons_zero, hig]
    rfl
  dsimp only [acts, act, List.foldl_cons, List.foldl_nil]
  rw [hm]
  refine ⟨⟨_, List.mem_singleton.mpr rfl, rfl, rfl⟩, rfl, rfl, ?_⟩
  intro items now'
  cases items with
  | none =>
    unfold completed
    exact fun h => nomatch h
  | some l =>
    have := (processItems_spec (decide ((now : Int) = 0) && f.backlog) u l [⟨u, .fetched, t⟩] (by simp [urls])).2.2.1
      (by simp [urls])
    exact this

end Verif.FeedHistory
