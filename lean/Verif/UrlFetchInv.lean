import Verif.UrlFetch
/-
Fetching of URLs: the invariant of all schedules in which nobody acts between the two statements of a retry.
-/
namespace Verif.UrlFetch

/- ## Lists of items -/

theorem upd_ids {f : Item → Item} (hf : ∀ x, (f x).id = x.id) (id : Nat) (l : List Item) : (upd f id l).map (·.id) = l.map (·.id) := by
  unfold upd
  rw [List.map_map]
  apply List.map_congr_left
  intro x _
  dsimp only [Function.comp]
  split
  · exact hf x
  · rfl

theorem upd_none {f : Item → Item} {id : Nat} {l : List Item} (h : id ∉ l.map (·.id)) : upd f id l = l := by
  unfold upd
  rw [List.map_congr_left (g := _root_.id)]
  · exact List.map_id _
  · intro x hx
    rw [if_neg (fun e => h (List.mem_map.mpr ⟨x, hx, e⟩))]; rfl

theorem mem_upd {f : Item → Item} {id : Nat} {l : List Item} {y : Item} (h : y ∈ upd f id l) :
    ∃ x ∈ l, (x.id = id ∧ y = f x) ∨ (x.id ≠ id ∧ y = x) := by
  obtain ⟨x, hx, e⟩ := List.mem_map.mp h
  refine ⟨x, hx, ?_⟩
  by_cases h2 : x.id = id
  · rw [if_pos h2] at e; exact Or.inl ⟨h2, e.symm⟩
  · rw [if_neg h2] at e; exact Or.inr ⟨h2, e.symm⟩

theorem upd_mem {f : Item → Item} {id : Nat} {l : List Item} {x : Item} (h : x ∈ l) (he : x.id = id) : f x ∈ upd f id l :=
  List.mem_map.mpr ⟨x, h, by rw [if_pos he]⟩

theorem find_item {l : List Item} {id : Nat} {x : Item} (h : l.find? (fun x => x.id == id) = some x) : x ∈ l ∧ x.id = id :=
  ⟨List.mem_of_find?_eq_some h, by simpa using List.find?_some h⟩

theorem find_item_none {l : List Item} {id : Nat} (h : l.find? (fun x => x.id == id) = none) : id ∉ l.map (·.id) := by
  intro hm
  obtain ⟨x, hx, e⟩ := List.mem_map.mp hm
  have := List.find?_eq_none.mp h x hx
  rw [e] at this
  simp at this

theorem find_dl {l : List Dl} {tid : Nat} {d : Dl} (h : l.find? (fun d => d.tid == tid) = some d) : d ∈ l ∧ d.tid = tid :=
  ⟨List.mem_of_find?_eq_some h, by simpa using List.find?_some h⟩

theorem item_unique {l : List Item} (h : (l.map (·.id)).Nodup) {x y : Item} (hx : x ∈ l) (hy : y ∈ l) (e : x.id = y.id) : x = y := by
  induction l with
  | nil => exact nomatch hx
  | cons z l ih =>
    rw [List.map_cons, List.nodup_cons] at h
    rcases List.mem_cons.mp hx with hx | hx
    · rcases List.mem_cons.mp hy with hy | hy
      · rw [hx, hy]
      · exact absurd (List.mem_map.mpr ⟨y, hy, by rw [← e, hx]⟩) h.1
    · rcases List.mem_cons.mp hy with hy | hy
      · exact absurd (List.mem_map.mpr ⟨x, hx, by rw [e, hy]⟩) h.1
      · exact ih h.2 hx hy

theorem dl_unique {l : List Dl} (h : (l.map (·.tid)).Nodup) {x y : Dl} (hx : x ∈ l) (hy : y ∈ l) (e : x.tid = y.tid) : x = y := by
  induction l with
  | nil => exact nomatch hx
  | cons z l ih =>
    rw [List.map_cons, List.nodup_cons] at h
    rcases List.mem_cons.mp hx with hx | hx
    · rcases List.mem_cons.mp hy with hy | hy
      · rw [hx, hy]
      · exact absurd (List.mem_map.mpr ⟨y, hy, by rw [← e, hx]⟩) h.1
    · rcases List.mem_cons.mp hy with hy | hy
      · exact absurd (List.mem_map.mpr ⟨x, hx, by rw [e, hy]⟩) h.1
      · exact ih h.2 hx hy

/-- Without the item with this id. -/
def without (l : List Item) (id : Nat) : List Item := l.filter (fun y => decide (y.id ≠ id))

theorem without_none {l : List Item} {id : Nat} (h : id ∉ l.map (·.id)) : without l id = l := by
  unfold without
  rw [List.filter_eq_self]
  intro x hx
  exact decide_eq_true (fun e => h (List.mem_map.mpr ⟨x, hx, e⟩))

theorem mem_without {l : List Item} {id : Nat} {x : Item} : x ∈ without l id ↔ x ∈ l ∧ x.id ≠ id := by
  unfold without
  rw [List.mem_filter, decide_eq_true_iff]

theorem without_perm {l : List Item} {x : Item} (h : (l.map (·.id)).Nodup) (hx : x ∈ l) :
    List.Perm (l.map (·.id)) (x.id :: (without l x.id).map (·.id)) := by
  induction l with
  | nil => exact nomatch hx
  | cons z l ih =>
    rw [List.map_cons, List.nodup_cons] at h
    rcases List.mem_cons.mp hx with e | hx
    · subst e
      have : without (x :: l) x.id = l := by
        unfold without
        rw [List.filter_cons_of_neg (by simp)]
        exact without_none h.1
      rw [this]; exact List.Perm.refl _
    · have hne : z.id ≠ x.id := fun e => h.1 (e ▸ List.mem_map.mpr ⟨x, hx, rfl⟩)
      have : without (z :: l) x.id = z :: without l x.id := by
        unfold without
        rw [List.filter_cons_of_pos (by simp [hne])]
      rw [this, List.map_cons, List.map_cons]
      exact ((ih h.2 hx).cons z.id).trans (List.Perm.swap _ _ _)

/- ## The invariant -/

/-- Everything which was ever added. -/
def allIds (s : St) : List Nat := s.queue.map (·.id) ++ (s.history.map (·.id) ++ (s.nzbs ++ s.freed))

/-- The status tells what went wrong. -/
def Failing (st : Status) : Prop := st = .failed ∨ st = .scanFailed ∨ st = .scanSkipped

/-- The item fits to the place of its thread. -/
def Rel : Pc → Item → Prop
  | .running, x => x.status = .running ∧ x.del = false
  | .clear, _ => False
  | .scan, x => x.status = .finished ∧ x.del = false
  | .report, x => x.del = true ∨ Failing x.status

/-- An item of the queue has a thread or waits. -/
def Ok (dls : List Dl) (x : Item) : Prop :=
  (∃ d ∈ dls, d.item = x.id ∧ x.active = true ∧ Rel d.pc x) ∨
  ((∀ d ∈ dls, d.item ≠ x.id) ∧ x.active = false ∧ x.status = .none ∧ x.del = false)

structure Inv (s : St) : Prop where
  ids : (allIds s).Nodup
  tids : (s.dls.map (·.tid)).Nodup
  below : ∀ d ∈ s.dls, d.tid < s.next
  items : (s.dls.map (·.item)).Nodup
  threads : ∀ d ∈ s.dls, d.item ∈ s.queue.map (·.id)
  queue : ∀ x ∈ s.queue, Ok s.dls x
  history : ∀ x ∈ s.history, x.active = false ∧ (x.del = true ∨ Failing x.status)

theorem Inv.queue_ids {s : St} (h : Inv s) : (s.queue.map (·.id)).Nodup := (List.nodup_append.mp h.ids).1

theorem Inv.history_ids {s : St} (h : Inv s) : (s.history.map (·.id)).Nodup := (List.nodup_append.mp (List.nodup_append.mp h.ids).2.1).1

theorem Inv.apart {s : St} (h : Inv s) {id : Nat} (hq : id ∈ s.queue.map (·.id)) : id ∉ s.history.map (·.id) ∧ id ∉ s.nzbs ∧ id ∉ s.freed := by
  have := (List.nodup_append.mp h.ids).2.2 id hq
  refine ⟨fun h2 => this id (List.mem_append_left _ h2) rfl, fun h2 => ?_, fun h2 => ?_⟩
  · exact this id (List.mem_append_right _ (List.mem_append_left _ h2)) rfl
  · exact this id (List.mem_append_right _ (List.mem_append_right _ h2)) rfl

theorem Inv.apart_history {s : St} (h : Inv s) {id : Nat} (hq : id ∈ s.history.map (·.id)) : id ∉ s.queue.map (·.id) ∧ id ∉ s.nzbs ∧ id ∉ s.freed := by
  have h2 := (List.nodup_append.mp (List.nodup_append.mp h.ids).2.1).2.2 id hq
  refine ⟨fun h3 => (h.apart h3).1 hq, fun h3 => h2 id (List.mem_append_left _ h3) rfl, fun h3 => h2 id (List.mem_append_right _ h3) rfl⟩

/- The thread of an item is the only one. -/
theorem Inv.thread_unique {s : St} (h : Inv s) {d e : Dl} (hd : d ∈ s.dls) (he : e ∈ s.dls) (hi : d.item = e.item) : d = e := by
  have := h.items
  revert this hd he
  generalize s.dls = l
  intro hd he hn
  induction l with
  | nil => exact nomatch hd
  | cons z l ih =>
    rw [List.map_cons, List.nodup_cons] at hn
    rcases List.mem_cons.mp hd with hd | hd
    · rcases List.mem_cons.mp he with he | he
      · rw [hd, he]
      · exact absurd (List.mem_map.mpr ⟨e, he, by rw [← hi, hd]⟩) hn.1
    · rcases List.mem_cons.mp he with he | he
      · exact absurd (List.mem_map.mpr ⟨d, hd, by rw [hi, he]⟩) hn.1
      · exact ih hd he hn.2

/- The item of a thread. -/
theorem Inv.item_of {s : St} (h : Inv s) {d : Dl} (hd : d ∈ s.dls) : ∃ x ∈ s.queue, x.id = d.item ∧ x.active = true ∧ Rel d.pc x ∧ find s d.item = some x := by
  obtain ⟨x, hx, e⟩ := List.mem_map.mp (h.threads d hd)
  have hf : s.queue.find? (fun x => x.id == d.item) = some x := by
    cases hq : s.queue.find? (fun x => x.id == d.item) with
    | none => exact absurd (List.mem_map.mpr ⟨x, hx, e⟩) (find_item_none hq)
    | some y =>
      obtain ⟨h1, h2⟩ := find_item hq
      rw [item_unique h.queue_ids h1 hx (by rw [h2, e])]
  have hfind : find s d.item = some x := by unfold find; rw [hf]
  rcases h.queue x hx with ⟨d2, hd2, h1, h2, h3⟩ | ⟨h1, _⟩
  · have : d2 = d := h.thread_unique hd2 hd (by rw [h1, e])
    rw [this] at h3
    exact ⟨x, hx, e, h2, h3, hfind⟩
  · exact absurd e.symm (h1 d hd)

/- ## A write to the item of a thread -/

/- The item of one thread is changed, the thread goes on. -/
theorem Inv.change {s : St} (h : Inv s) {d : Dl} (hd : d ∈ s.dls) {x : Item} (hx : x ∈ s.queue) (he : x.id = d.item) {f : Item → Item}
    (hf : ∀ y, (f y).id = y.id) (ha : (f x).active = true) {pc : Pc} (hr : Rel pc (f x)) : Inv (goto (s.write d.item f) d.tid pc) := by
  have hh : upd f d.item s.history = s.history := upd_none (h.apart (h.threads d hd)).1
  have hids : allIds (goto (s.write d.item f) d.tid pc) = allIds s := by
    unfold allIds goto St.write
    dsimp only
    rw [hh, upd_ids hf]
  have hdl : ∀ e ∈ s.dls, e.tid = d.tid → e = d := fun e he2 ht => dl_unique h.tids he2 hd ht
  constructor
  · rw [hids]; exact h.ids
  · unfold goto St.write
    dsimp only
    rw [List.map_map, List.map_congr_left (g := (·.tid))]
    · exact h.tids
    · intro e _; dsimp only [Function.comp]; split <;> rfl
  · intro e he2
    unfold goto St.write at he2 ⊢
    dsimp only at he2 ⊢
    obtain ⟨e3, he3, e4⟩ := List.mem_map.mp he2
    have := h.below e3 he3
    rw [← e4]
    split <;> exact this
  · unfold goto St.write
    dsimp only
    rw [List.map_map, List.map_congr_left (g := (·.item))]
    · exact h.items
    · intro e _; dsimp only [Function.comp]; split <;> rfl
  · intro e he2
    unfold goto St.write at he2 ⊢
    dsimp only at he2 ⊢
    rw [upd_ids hf]
    obtain ⟨e3, he3, e4⟩ := List.mem_map.mp he2
    have := h.threads e3 he3
    rw [← e4]
    split <;> exact this
  · intro y hy
    unfold goto St.write at hy ⊢
    dsimp only at hy ⊢
    obtain ⟨z, hz, hc⟩ := mem_upd hy
    rcases hc with ⟨h1, h2⟩ | ⟨h1, h2⟩
    · have : z = x := item_unique h.queue_ids hz hx (by rw [h1, he])
      rw [h2, this]
      left
      refine ⟨{ d with pc := pc }, List.mem_map.mpr ⟨d, hd, by rw [if_pos rfl]⟩, ?_, ha, hr⟩
      dsimp only
      rw [hf, he]
    · rw [h2]
      rcases h.queue z hz with ⟨d2, hd2, h3, h4, h5⟩ | ⟨h3, h4⟩
      · left
        refine ⟨d2, List.mem_map.mpr ⟨d2, hd2, ?_⟩, h3, h4, h5⟩
        rw [if_neg]
        intro e
        exact h1 (by rw [← h3, hdl d2 hd2 e])
      · right
        refine ⟨fun e he2 => ?_, h4⟩
        obtain ⟨e3, he3, e4⟩ := List.mem_map.mp he2
        have := h3 e3 he3
        rw [← e4]
        split <;> exact this
  · unfold goto St.write
    dsimp only
    rw [hh]; exact h.history

theorem mark_id (r : Result) (x : Item) : (mark r x).id = x.id := by
  unfold mark
  split
  · rfl
  · cases r <;> rfl

theorem mark_active (r : Result) (x : Item) : (mark r x).active = x.active := by
  unfold mark
  split
  · rfl
  · cases r <;> rfl

theorem finish_inv {s : St} (h : Inv s) (tid : Nat) {r : Result} (hr : r ≠ .retry) : Inv (finish s tid r) := by
  unfold finish
  split
  · rename_i d hd
    obtain ⟨hd, ht⟩ := find_dl hd
    split
    · rename_i hpc
      obtain ⟨x, hx, he, ha, hrel, hfind⟩ := h.item_of hd
      rw [hfind, ← ht]
      dsimp only
      rw [if_neg (fun e => hr e.1)]
      rw [hpc] at hrel
      split
      · rename_i hst
        refine h.change hd hx he (mark_id r) (by rw [mark_active, ha]) ⟨hst, ?_⟩
        unfold mark at hst ⊢
        split
        · rename_i hdel; rw [if_pos hdel] at hst; exact nomatch hst
        · cases r <;> exact hrel.2
      · rename_i hst
        refine h.change hd hx he (mark_id r) (by rw [mark_active, ha]) ?_
        unfold mark at hst ⊢
        split
        · exact Or.inl rfl
        · rename_i hdel
          rw [if_neg hdel] at hst
          cases r with
          | finished => exact absurd rfl hst
          | failed => exact Or.inr (Or.inl rfl)
          | retry => exact absurd rfl hr
    · exact h
  · exact h

/- ## Threads end -/

theorem mem_end {s : St} {tid : Nat} {e : Dl} : e ∈ (endThread s tid).dls ↔ e ∈ s.dls ∧ e.tid ≠ tid := by
  unfold endThread
  rw [List.mem_filter, decide_eq_true_iff]

theorem end_sub (s : St) (tid : Nat) : (endThread s tid).dls.Sublist s.dls := List.filter_sublist

/- A waiting item again. -/
theorem retry_inv {s : St} (h : Inv s) (tid : Nat) : Inv (clear (finish s tid .retry) tid) := by
  unfold finish
  cases hd : s.dls.find? (fun d => d.tid == tid) with
  | none =>
    dsimp only
    unfold clear
    rw [hd]; exact h
  | some d =>
    obtain ⟨hdm, ht⟩ := find_dl hd
    dsimp only
    obtain ⟨x, hx, he, ha, hrel, hfind⟩ := h.item_of hdm
    by_cases hpc : d.pc = .running
    · rw [if_pos hpc, hfind]
      dsimp only
      rw [hpc] at hrel
      cases hdel : x.deleting with
      | true =>
        have hm : mark .retry x = { x with del := true, status := .none, deleting := false } := by unfold mark; rw [if_pos hdel]
        rw [if_neg (fun e => nomatch e.2), if_neg (by rw [hm]; exact fun e => nomatch e)]
        have hinv := h.change hdm hx he (mark_id .retry) (pc := .report) (by rw [mark_active, ha]) (Or.inl (by rw [hm]))
        rw [ht] at hinv
        have hno : clear (goto (s.write d.item (mark .retry)) tid .report) tid = goto (s.write d.item (mark .retry)) tid .report := by
          unfold clear
          cases hf : (goto (s.write d.item (mark .retry)) tid .report).dls.find? (fun d => d.tid == tid) with
          | none => rfl
          | some e =>
            dsimp only
            obtain ⟨h1, h2⟩ := find_dl hf
            unfold goto at h1
            obtain ⟨e3, he3, e4⟩ := List.mem_map.mp h1
            rw [if_neg]
            intro hc
            by_cases e5 : e3.tid = tid
            · rw [if_pos e5] at e4; rw [← e4] at hc; exact nomatch hc
            · rw [if_neg e5] at e4; rw [e4] at e5; exact e5 h2
        rw [hno]; exact hinv
      | false =>
        rw [if_pos ⟨rfl, rfl⟩]
        have hm : mark .retry x = { x with status := .none } := by unfold mark; rw [hdel]; rfl
        have hf : (goto (s.write d.item (mark .retry)) tid .clear).dls.find? (fun d => d.tid == tid) = some { d with pc := .clear } := by
          unfold goto St.write
          dsimp only
          rw [List.find?_map]
          have hc : ((fun d : Dl => d.tid == tid) ∘ fun d : Dl => if d.tid = tid then { d with pc := Pc.clear } else d) = fun d => d.tid == tid := by
            funext e
            dsimp only [Function.comp]
            split <;> rfl
          rw [hc, hd]
          dsimp only [Option.map]
          rw [if_pos ht]
        unfold clear
        rw [hf]
        dsimp only
        rw [if_pos rfl]
        have hh : ∀ f : Item → Item, upd f d.item s.history = s.history := fun f => upd_none (h.apart (h.threads d hdm)).1
        have hids : allIds (endThread ((goto (s.write d.item (mark .retry)) tid .clear).write d.item (fun x => { x with active := false })) tid) = allIds s := by
          unfold allIds endThread goto St.write
          dsimp only
          rw [hh, hh, upd_ids (f := fun x => { x with active := false }) (fun _ => rfl), upd_ids (mark_id _)]
        -- the threads which are left
        have hdls : ∀ e, e ∈ (endThread ((goto (s.write d.item (mark .retry)) tid .clear).write d.item (fun x => { x with active := false })) tid).dls ↔
            e ∈ s.dls ∧ e.tid ≠ tid := by
          intro e
          rw [mem_end]
          unfold goto St.write
          dsimp only
          constructor
          · rintro ⟨h1, h2⟩
            obtain ⟨e3, he3, e4⟩ := List.mem_map.mp h1
            by_cases e5 : e3.tid = tid
            · rw [if_pos e5] at e4; rw [← e4] at h2; exact absurd e5 h2
            · rw [if_neg e5] at e4; rw [← e4]; exact ⟨he3, e5⟩
          · rintro ⟨h1, h2⟩
            exact ⟨List.mem_map.mpr ⟨e, h1, by rw [if_neg h2]⟩, h2⟩
        have hsub : ((endThread ((goto (s.write d.item (mark .retry)) tid .clear).write d.item (fun x => { x with active := false })) tid).dls.map (·.tid)).Sublist (s.dls.map (·.tid)) := by
          refine ((end_sub _ tid).map _).trans ?_
          unfold goto St.write
          dsimp only
          rw [List.map_map, List.map_congr_left (g := (·.tid))]
          · exact List.Sublist.refl _
          · intro e _; dsimp only [Function.comp]; split <;> rfl
        have hsub2 : ((endThread ((goto (s.write d.item (mark .retry)) tid .clear).write d.item (fun x => { x with active := false })) tid).dls.map (·.item)).Sublist (s.dls.map (·.item)) := by
          refine ((end_sub _ tid).map _).trans ?_
          unfold goto St.write
          dsimp only
          rw [List.map_map, List.map_congr_left (g := (·.item))]
          · exact List.Sublist.refl _
          · intro e _; dsimp only [Function.comp]; split <;> rfl
        constructor
        · rw [hids]; exact h.ids
        · exact hsub.nodup h.tids
        · intro e he2; exact h.below e ((hdls e).mp he2).1
        · exact hsub2.nodup h.items
        · intro e he2
          have := h.threads e ((hdls e).mp he2).1
          unfold endThread goto St.write
          dsimp only
          rw [upd_ids (f := fun x => { x with active := false }) (fun _ => rfl), upd_ids (mark_id _)]; exact this
        · intro y hy
          have hy' : y ∈ upd (fun x => { x with active := false }) d.item (upd (mark .retry) d.item s.queue) := hy
          obtain ⟨z, hz, hc⟩ := mem_upd hy'
          obtain ⟨w, hw, hc2⟩ := mem_upd hz
          rcases hc2 with ⟨h1, h2⟩ | ⟨h1, h2⟩
          · have hwx : w = x := item_unique h.queue_ids hw hx (by rw [h1, he])
            rcases hc with ⟨h3, h4⟩ | ⟨h3, _⟩
            · right
              rw [h4, h2, hwx, hm]
              refine ⟨fun e he2 e3 => ?_, rfl, rfl, hrel.2⟩
              have := (hdls e).mp he2
              dsimp only at e3
              exact this.2 (by rw [h.thread_unique this.1 hdm (by rw [e3, he]), ht])
            · rw [h2, mark_id] at h3; exact absurd h1 h3
          · rcases hc with ⟨h3, _⟩ | ⟨h3, h4⟩
            · rw [h2] at h3; exact absurd h3 h1
            · rw [h4, h2]
              rcases h.queue w hw with ⟨d2, hd2, h5, h6⟩ | ⟨h5, h6⟩
              · left
                refine ⟨d2, (hdls d2).mpr ⟨hd2, fun e => ?_⟩, h5, h6⟩
                exact h1 (by rw [← h5, dl_unique h.tids hd2 hdm (by rw [e, ht])])
              · right
                exact ⟨fun e he2 => h5 e ((hdls e).mp he2).1, h6⟩
        · intro y hy
          have hy' : y ∈ upd (fun x => { x with active := false }) d.item (upd (mark .retry) d.item s.history) := hy
          rw [hh, hh] at hy'
          exact h.history y hy'
    · rw [if_neg hpc]
      unfold clear
      rw [hd]
      dsimp only
      rw [if_neg]
      · exact h
      · intro e
        rw [e] at hrel; exact hrel

/- ## Items leave the queue -/

/- The item of the thread, if any, leaves; it has no other thread. -/
theorem Inv.remove {s : St} (h : Inv s) {x : Item} (hx : x ∈ s.queue) {s' : St} (hq : s'.queue = without s.queue x.id)
    (hd : ∀ e, e ∈ s'.dls ↔ e ∈ s.dls ∧ e.item ≠ x.id) (hs1 : (s'.dls.map (·.tid)).Sublist (s.dls.map (·.tid)))
    (hs2 : (s'.dls.map (·.item)).Sublist (s.dls.map (·.item))) (hn : s'.next = s.next)
    (hp : List.Perm (allIds s) (allIds s')) (hh : ∀ y ∈ s'.history, y.active = false ∧ (y.del = true ∨ Failing y.status)) : Inv s' := by
  constructor
  · exact hp.nodup_iff.mp h.ids
  · exact hs1.nodup h.tids
  · intro e he; rw [hn]; exact h.below e ((hd e).mp he).1
  · exact hs2.nodup h.items
  · intro e he
    have := (hd e).mp he
    obtain ⟨y, hy, e2⟩ := List.mem_map.mp (h.threads e this.1)
    rw [hq]
    exact List.mem_map.mpr ⟨y, mem_without.mpr ⟨hy, by rw [e2]; exact this.2⟩, e2⟩
  · intro y hy
    rw [hq] at hy
    obtain ⟨h1, h2⟩ := mem_without.mp hy
    rcases h.queue y h1 with ⟨d2, hd2, h5, h6⟩ | ⟨h5, h6⟩
    · left; exact ⟨d2, (hd d2).mpr ⟨hd2, by rw [h5]; exact h2⟩, h5, h6⟩
    · right; exact ⟨fun e he => h5 e ((hd e).mp he).1, h6⟩
  · exact hh

theorem leave_perm (c : Cfg) {s : St} (h : Inv s) {x y : Item} (hx : x ∈ s.queue) (hy : y.id = x.id) : List.Perm (allIds s) (allIds (leave c s y)) := by
  have hw := without_perm h.queue_ids hx
  unfold leave
  rw [hy]
  split
  · unfold allIds
    dsimp only
    rw [List.map_cons]
    refine (hw.append_right _).trans ?_
    exact List.perm_middle.symm
  · unfold allIds
    dsimp only
    refine (hw.append_right _).trans ?_
    rw [List.cons_append]
    refine List.Perm.trans ?_ ((List.Perm.append_left _ (List.Perm.append_left _ (List.perm_middle.symm))))
    refine List.Perm.trans ?_ ((List.Perm.append_left _ (List.perm_middle.symm)))
    exact List.perm_middle.symm

theorem leave_queue (c : Cfg) (s : St) (y : Item) : (leave c s y).queue = without s.queue y.id ∧ (leave c s y).dls = s.dls ∧ (leave c s y).next = s.next := by
  unfold leave
  split <;> exact ⟨rfl, rfl, rfl⟩

theorem leave_history (c : Cfg) (s : St) (y : Item) : ∀ z ∈ (leave c s y).history, z ∈ s.history ∨ z = { y with avoid := false } := by
  intro z hz
  unfold leave at hz
  split at hz
  · rcases List.mem_cons.mp hz with h | h
    · exact Or.inr h
    · exact Or.inl h
  · exact Or.inl hz

theorem end_dls (s : St) (h : Inv s) {d : Dl} (hd : d ∈ s.dls) {s2 : St} (h2 : s2.dls = s.dls) :
    ∀ e, e ∈ (endThread s2 d.tid).dls ↔ e ∈ s.dls ∧ e.item ≠ d.item := by
  intro e
  rw [mem_end, h2]
  constructor
  · rintro ⟨h3, h4⟩
    exact ⟨h3, fun e2 => h4 (by rw [h.thread_unique h3 hd e2])⟩
  · rintro ⟨h3, h4⟩
    exact ⟨h3, fun e2 => h4 (by rw [dl_unique h.tids h3 hd e2])⟩

theorem end_map {α : Type} (f : Dl → α) {s s2 : St} (h2 : s2.dls = s.dls) (tid : Nat) : ((endThread s2 tid).dls.map f).Sublist (s.dls.map f) := by
  rw [← h2]; exact (end_sub s2 tid).map _

theorem report_inv (c : Cfg) {s : St} (h : Inv s) (tid : Nat) : Inv (report c s tid) := by
  unfold report
  split
  · rename_i d hd
    obtain ⟨hd, ht⟩ := find_dl hd
    split
    · rename_i hpc
      split
      · rename_i x hx
        obtain ⟨hx, he⟩ := find_item hx
        obtain ⟨x2, hx2, he2, ha, hrel, hfind⟩ := h.item_of hd
        have hxx : x2 = x := item_unique h.queue_ids hx2 hx (by rw [he2, he])
        rw [hxx, hpc] at hrel
        obtain ⟨l1, l2, l3⟩ := leave_queue c s { x with active := false }
        rw [← ht]
        refine h.remove hx (s' := endThread (leave c s { x with active := false }) d.tid) l1 ?_ (end_map _ l2 _) (end_map _ l2 _) l3
          (leave_perm c h hx rfl) ?_
        · intro e; rw [end_dls s h hd l2 e, he]
        · intro z hz
          rcases leave_history c s _ z hz with hz | hz
          · exact h.history z hz
          · rw [hz]; exact ⟨rfl, hrel⟩
      · exact h
    · exact h
  · exact h

theorem scanned_inv {s : St} (h : Inv s) (tid : Nat) (r : Added) : Inv (scanned s tid r) := by
  unfold scanned
  split
  · rename_i d hd
    obtain ⟨hd, ht⟩ := find_dl hd
    split
    · obtain ⟨x, hx, he, ha, hrel, hfind⟩ := h.item_of hd
      split
      · rw [← ht]
        refine h.remove hx (s' := endThread { s with queue := s.queue.filter (fun y => decide (y.id ≠ d.item)), nzbs := d.item :: s.nzbs } d.tid)
          (by rw [he]; rfl) ?_ (end_map _ rfl _) (end_map _ rfl _) rfl ?_ h.history
        · intro e; rw [he]; exact end_dls s h hd rfl e
        · have hw := without_perm h.queue_ids hx
          rw [he] at hw
          refine (hw.append_right _).trans ?_
          rw [List.cons_append]
          refine List.Perm.trans ?_ ((List.Perm.append_left _ (List.perm_middle.symm)))
          exact List.perm_middle.symm
      · rw [← ht]; exact h.change hd hx he (f := fun x => { x with status := .scanFailed }) (pc := .report) (fun _ => rfl) ha (Or.inr (Or.inr (Or.inl rfl)))
      · rw [← ht]; exact h.change hd hx he (f := fun x => { x with status := .scanSkipped }) (pc := .report) (fun _ => rfl) ha (Or.inr (Or.inr (Or.inr rfl)))
    · exact h
  · exact h

theorem clear_inv {s : St} (h : Inv s) (tid : Nat) : Inv (clear s tid) := by
  unfold clear
  split
  · rename_i d hd
    obtain ⟨hd, ht⟩ := find_dl hd
    obtain ⟨x, hx, he, ha, hrel, hfind⟩ := h.item_of hd
    split
    · rename_i hpc; rw [hpc] at hrel; exact hrel.elim
    · exact h
  · exact h

/- Marks which do not matter for the invariant. -/
theorem flags_inv {s : St} (h : Inv s) (id : Nat) {f : Item → Item}
    (hf : ∀ y, (f y).id = y.id ∧ (f y).active = y.active ∧ (f y).status = y.status ∧ (f y).del = y.del) {s' : St}
    (hq : s'.queue = upd f id s.queue) (hhist : s'.history = s.history) (hd : s'.dls = s.dls) (hn : s'.next = s.next)
    (h1 : s'.nzbs = s.nzbs) (h2 : s'.freed = s.freed) : Inv s' := by
  have hids : allIds s' = allIds s := by unfold allIds; rw [hq, hhist, h1, h2, upd_ids (fun y => (hf y).1)]
  have key : ∀ y, Ok s.dls y → Ok s.dls (f y) := by
    intro y hy
    obtain ⟨f1, f2, f3, f4⟩ := hf y
    rcases hy with ⟨d, h5, h6, h7, h8⟩ | ⟨h5, h6, h7, h8⟩
    · left
      refine ⟨d, h5, by rw [f1]; exact h6, by rw [f2]; exact h7, ?_⟩
      revert h8
      cases d.pc <;> (unfold Rel; dsimp only; (try rw [f3, f4]); exact fun h => h)
    · right
      exact ⟨fun e he => by rw [f1]; exact h5 e he, by rw [f2]; exact h6, by rw [f3]; exact h7, by rw [f4]; exact h8⟩
  constructor
  · rw [hids]; exact h.ids
  · rw [hd]; exact h.tids
  · rw [hd, hn]; exact h.below
  · rw [hd]; exact h.items
  · rw [hd, hq, upd_ids (fun y => (hf y).1)]; exact h.threads
  · intro y hy
    rw [hq] at hy
    rw [hd]
    obtain ⟨z, hz, hc⟩ := mem_upd hy
    rcases hc with ⟨_, e⟩ | ⟨_, e⟩
    · rw [e]; exact key z (h.queue z hz)
    · rw [e]; exact h.queue z hz
  · rw [hhist]; exact h.history

theorem delete_inv (c : Cfg) {s : St} (h : Inv s) (id : Nat) (final : Bool) : Inv (delete c s id final).1 := by
  unfold delete
  split
  · rename_i x hx
    obtain ⟨hx, he⟩ := find_item hx
    split
    · refine flags_inv h id (f := fun x => { x with deleting := true, avoid := final }) (fun y => ⟨rfl, rfl, rfl, rfl⟩) rfl rfl rfl rfl rfl rfl
    · rename_i ha
      have hno : ∀ d ∈ s.dls, d.item ≠ x.id := by
        rcases h.queue x hx with ⟨d, _, _, h3, _⟩ | ⟨h1, _⟩
        · exact absurd h3 ha
        · exact h1
      obtain ⟨l1, l2, l3⟩ := leave_queue c s { x with del := true, status := .none, deleting := false }
      refine h.remove hx (s' := leave c s { x with del := true, status := .none, deleting := false }) l1 ?_ (by rw [l2]; exact List.Sublist.refl _) (by rw [l2]; exact List.Sublist.refl _) l3
        (leave_perm c h hx rfl) ?_
      · intro e; rw [l2]; exact ⟨fun h1 => ⟨h1, hno e h1⟩, fun h1 => h1.1⟩
      · intro z hz
        rcases leave_history c s _ z hz with hz | hz
        · exact h.history z hz
        · rw [hz]
          exact ⟨by cases hb : x.active with
            | true => exact absurd hb ha
            | false => rfl, Or.inl rfl⟩
  · exact h

/- ## New items -/

/- The lists with new items which wait. -/
theorem Inv.grow {s : St} (h : Inv s) {x : Item} (hx : x.active = false ∧ x.status = .none ∧ x.del = false) (hid : x.id ∉ s.queue.map (·.id))
    {s' : St} (hq : ∀ y, y ∈ s'.queue ↔ y = x ∨ y ∈ s.queue) (hd : s'.dls = s.dls) (hn : s'.next = s.next)
    (hh : ∀ y ∈ s'.history, y ∈ s.history) (hids : (allIds s').Nodup) : Inv s' := by
  constructor
  · exact hids
  · rw [hd]; exact h.tids
  · rw [hd, hn]; exact h.below
  · rw [hd]; exact h.items
  · intro e he
    rw [hd] at he
    obtain ⟨y, hy, e2⟩ := List.mem_map.mp (h.threads e he)
    exact List.mem_map.mpr ⟨y, (hq y).mpr (Or.inr hy), e2⟩
  · intro y hy
    rw [hd]
    rcases (hq y).mp hy with e | hy
    · right
      rw [e]
      exact ⟨fun e he h2 => hid (h2 ▸ h.threads e he), hx⟩
    · exact h.queue y hy
  · intro y hy; exact h.history y (hh y hy)

theorem again_perm {s : St} (h : Inv s) (id : Nat) : List.Perm (allIds s) (allIds (again s id)) := by
  unfold again
  split
  · rename_i x hx
    obtain ⟨hx, he⟩ := find_item hx
    have hw := without_perm h.history_ids hx
    rw [he] at hw
    unfold allIds
    dsimp only
    rw [List.map_cons]
    dsimp only
    rw [he]
    refine (List.Perm.append_left _ (hw.append_right _)).trans ?_
    rw [List.cons_append, List.cons_append]
    exact List.perm_middle
  · exact List.Perm.refl _

theorem again_inv {s : St} (h : Inv s) (id : Nat) : Inv (again s id) := by
  have hp := again_perm h id
  unfold again at hp ⊢
  split at hp
  · rename_i x hx
    obtain ⟨hx, he⟩ := find_item hx
    refine h.grow (x := { x with status := .none, del := false }) ⟨(h.history x hx).1, rfl, rfl⟩ ?_ (fun y => List.mem_cons) rfl rfl
      (fun y hy => (List.mem_filter.mp hy).1) (hp.nodup_iff.mp h.ids)
    exact (h.apart_history (List.mem_map.mpr ⟨x, hx, rfl⟩)).1
  · exact h

theorem histDelete_perm {s : St} (h : Inv s) (id : Nat) : List.Perm (allIds s) (allIds (histDelete s id)) := by
  unfold histDelete
  split
  · rename_i x hx
    obtain ⟨hx, he⟩ := find_item hx
    have hw := without_perm h.history_ids hx
    rw [he] at hw
    unfold allIds
    dsimp only
    rw [he]
    refine List.Perm.append_left _ ((hw.append_right _).trans ?_)
    rw [List.cons_append]
    refine List.Perm.trans ?_ ((List.Perm.append_left _ (List.perm_middle.symm)))
    exact List.perm_middle.symm
  · exact List.Perm.refl _

theorem histDelete_inv {s : St} (h : Inv s) (id : Nat) : Inv (histDelete s id) := by
  have hp := histDelete_perm h id
  unfold histDelete at hp ⊢
  split at hp
  · rename_i x hx
    exact ⟨hp.nodup_iff.mp h.ids, h.tids, h.below, h.items, h.threads, h.queue, fun y hy => h.history y (List.mem_filter.mp hy).1⟩
  · exact h

/- The id is new. -/
theorem fresh {s : St} {id : Nat} (h : ¬ ((s.queue ++ s.history).any (fun x => x.id == id) || s.nzbs.contains id || s.freed.contains id) = true) :
    id ∉ allIds s := by
  intro hm
  apply h
  unfold allIds at hm
  simp only [Bool.or_eq_true, List.any_eq_true, List.mem_append, List.contains_iff_mem]
  rcases List.mem_append.mp hm with h1 | h1
  · obtain ⟨x, hx, e⟩ := List.mem_map.mp h1
    exact Or.inl (Or.inl ⟨x, Or.inl hx, by rw [e]; exact beq_self_eq_true _⟩)
  · rcases List.mem_append.mp h1 with h1 | h1
    · obtain ⟨x, hx, e⟩ := List.mem_map.mp h1
      exact Or.inl (Or.inl ⟨x, Or.inr hx, by rw [e]; exact beq_self_eq_true _⟩)
    · rcases List.mem_append.mp h1 with h1 | h1
      · exact Or.inl (Or.inr h1)
      · exact Or.inr h1

theorem add_perm (c : Cfg) {s : St} (id : Nat) (prio : Int) (top dupe : Bool) :
    (id ∈ allIds s ∧ add c s id prio top dupe = s) ∨ (id ∉ allIds s ∧ List.Perm (id :: allIds s) (allIds (add c s id prio top dupe))) := by
  unfold add
  by_cases hc : ((s.queue ++ s.history).any (fun x => x.id == id) || s.nzbs.contains id || s.freed.contains id) = true
  · left
    rw [if_pos hc]
    refine ⟨?_, rfl⟩
    simp only [Bool.or_eq_true, List.any_eq_true, List.mem_append, List.contains_iff_mem] at hc
    unfold allIds
    rcases hc with (⟨x, hx, e⟩ | hc) | hc
    · have e : x.id = id := by simpa using e
      rcases hx with hx | hx
      · exact List.mem_append_left _ (List.mem_map.mpr ⟨x, hx, e⟩)
      · exact List.mem_append_right _ (List.mem_append_left _ (List.mem_map.mpr ⟨x, hx, e⟩))
    · exact List.mem_append_right _ (List.mem_append_right _ (List.mem_append_left _ hc))
    · exact List.mem_append_right _ (List.mem_append_right _ (List.mem_append_right _ hc))
  · right
    rw [if_neg hc]
    have hfr := fresh hc
    refine ⟨hfr, ?_⟩
    split
    · have hq : without s.queue id = s.queue := without_none (fun h => hfr (List.mem_append_left _ h))
      unfold leave
      split
      · unfold allIds
        dsimp only
        rw [show s.queue.filter (fun y => decide (y.id ≠ id)) = s.queue from hq, List.map_cons, List.cons_append]
        exact List.perm_middle.symm
      · unfold allIds
        dsimp only
        rw [show s.queue.filter (fun y => decide (y.id ≠ id)) = s.queue from hq]
        refine List.Perm.trans ?_ ((List.Perm.append_left _ (List.Perm.append_left _ (List.perm_middle.symm))))
        refine List.Perm.trans ?_ ((List.Perm.append_left _ (List.perm_middle.symm)))
        exact List.perm_middle.symm
    · split
      · exact List.Perm.refl _
      · unfold allIds
        dsimp only
        rw [List.map_append, List.append_assoc]
        exact List.perm_middle.symm

theorem add_inv (c : Cfg) {s : St} (h : Inv s) (id : Nat) (prio : Int) (top dupe : Bool) : Inv (add c s id prio top dupe) := by
  rcases add_perm c (s := s) id prio top dupe with ⟨_, e⟩ | ⟨hfr, hp⟩
  · rw [e]; exact h
  · have hnd : (allIds (add c s id prio top dupe)).Nodup := hp.nodup_iff.mp (List.nodup_cons.mpr ⟨hfr, h.ids⟩)
    have hidq : id ∉ s.queue.map (·.id) := fun h => hfr (List.mem_append_left _ h)
    unfold add at hnd ⊢
    by_cases hc : ((s.queue ++ s.history).any (fun x => x.id == id) || s.nzbs.contains id || s.freed.contains id) = true
    · rw [if_pos hc]; exact h
    · rw [if_neg hc] at hnd ⊢
      split
      · rename_i hdupe
        rw [if_pos hdupe] at hnd
        obtain ⟨l1, l2, l3⟩ := leave_queue c s ⟨id, prio, .none, true, false, false, false⟩
        have hq : without s.queue id = s.queue := without_none hidq
        dsimp only at l1
        rw [hq] at l1
        refine ⟨hnd, by rw [l2]; exact h.tids, by rw [l2, l3]; exact h.below, by rw [l2]; exact h.items, by rw [l2, l1]; exact h.threads, by rw [l2, l1]; exact h.queue, fun z hz => ?_⟩
        rcases leave_history c s _ z hz with hz | hz
        · exact h.history z hz
        · rw [hz]; exact ⟨rfl, Or.inl rfl⟩
      · rename_i hdupe
        rw [if_neg hdupe] at hnd
        split
        · rename_i htop
          rw [if_pos htop] at hnd
          exact h.grow (x := ⟨id, prio, .none, false, false, false, false⟩) ⟨rfl, rfl, rfl⟩ hidq (fun y => List.mem_cons) rfl rfl (fun y hy => hy) hnd
        · rename_i htop
          rw [if_neg htop] at hnd
          exact h.grow (x := ⟨id, prio, .none, false, false, false, false⟩) ⟨rfl, rfl, rfl⟩ hidq
            (fun y => by rw [List.mem_append, List.mem_singleton]; exact Or.comm) rfl rfl (fun y hy => hy) hnd

/- ## A download starts -/

theorem getNext_mem (l : List Item) : ∀ (b : Option Item) {x : Item}, getNext b l = some x → b = some x ∨ (x ∈ l ∧ waiting x = true) := by
  induction l with
  | nil => intro b x h; exact Or.inl h
  | cons y l ih =>
    intro b x h
    unfold getNext at h
    rcases ih _ h with h | h
    · split at h
      · rename_i hc
        cases h
        exact Or.inr ⟨List.mem_cons_self, (Bool.and_eq_true_iff.mp hc).1⟩
      · exact Or.inl h
    · exact Or.inr ⟨List.mem_cons_of_mem _ h.1, h.2⟩

theorem start_inv (c : Cfg) {s : St} (h : Inv s) : Inv (start c s) := by
  unfold start
  split
  · split
    · rename_i x hx
      have hx := (getNext_mem s.queue none hx).resolve_left (fun h => nomatch h)
      obtain ⟨hx, hw⟩ := hx
      unfold waiting at hw
      simp only [Bool.and_eq_true, decide_eq_true_eq, Bool.not_eq_true'] at hw
      have hno : ∀ d ∈ s.dls, d.item ≠ x.id := by
        rcases h.queue x hx with ⟨d, _, _, _, h3⟩ | ⟨h1, _⟩
        · exfalso
          revert h3
          cases d.pc with
          | running => intro h3; have h4 := h3.1; rw [hw.1] at h4; exact nomatch h4
          | clear => exact id
          | scan => intro h3; have h4 := h3.1; rw [hw.1] at h4; exact nomatch h4
          | report =>
            intro h3
            rcases h3 with h3 | h3 | h3 | h3
            · rw [hw.2] at h3; exact nomatch h3
            · rw [hw.1] at h3; exact nomatch h3
            · rw [hw.1] at h3; exact nomatch h3
            · rw [hw.1] at h3; exact nomatch h3
        · exact h1
      have hxq : x.id ∈ s.queue.map (·.id) := List.mem_map.mpr ⟨x, hx, rfl⟩
      have hh : ∀ f : Item → Item, upd f x.id s.history = s.history := fun f => upd_none (h.apart hxq).1
      have hids : allIds (startOn s x) = allIds s := by
        unfold allIds startOn St.write
        dsimp only
        rw [hh, upd_ids (f := fun x => { x with active := true, status := .running }) (fun _ => rfl)]
      constructor
      · rw [hids]; exact h.ids
      · unfold startOn
        dsimp only
        rw [List.map_append, List.nodup_append]
        refine ⟨h.tids, by simp, ?_⟩
        intro a ha b hb e
        obtain ⟨d, hd, e2⟩ := List.mem_map.mp ha
        have hb := List.mem_singleton.mp hb
        have := h.below d hd
        rw [e2, e, hb] at this
        exact Nat.lt_irrefl _ this
      · intro e he
        unfold startOn at he ⊢
        dsimp only at he ⊢
        rcases List.mem_append.mp he with he | he
        · exact Nat.lt_succ_of_lt (h.below e he)
        · rw [List.mem_singleton.mp he]; exact Nat.lt_succ_self _
      · unfold startOn
        dsimp only
        rw [List.map_append, List.nodup_append]
        refine ⟨h.items, by simp, ?_⟩
        intro a ha b hb e
        obtain ⟨d, hd, e2⟩ := List.mem_map.mp ha
        have hb := List.mem_singleton.mp hb
        exact hno d hd (by rw [e2, e, hb])
      · intro e he
        unfold startOn St.write at he ⊢
        dsimp only at he ⊢
        rw [upd_ids (f := fun x => { x with active := true, status := .running }) (fun _ => rfl)]
        rcases List.mem_append.mp he with he | he
        · exact h.threads e he
        · rw [List.mem_singleton.mp he]; exact hxq
      · intro y hy
        unfold startOn St.write at hy ⊢
        dsimp only at hy ⊢
        obtain ⟨z, hz, hc⟩ := mem_upd hy
        rcases hc with ⟨h1, e⟩ | ⟨h1, e⟩
        · have : z = x := item_unique h.queue_ids hz hx h1
          left
          rw [e, this]
          exact ⟨⟨s.next, x.id, .running⟩, List.mem_append_right _ (List.mem_singleton.mpr rfl), rfl, rfl, rfl, hw.2⟩
        · rw [e]
          rcases h.queue z hz with ⟨d, h3, h4⟩ | ⟨h3, h4⟩
          · left; exact ⟨d, List.mem_append_left _ h3, h4⟩
          · right
            refine ⟨fun d hd => ?_, h4⟩
            rcases List.mem_append.mp hd with hd | hd
            · exact h3 d hd
            · rw [List.mem_singleton.mp hd]; exact fun e => h1 e.symm
      · unfold startOn St.write
        dsimp only
        rw [hh]; exact h.history
    · exact h
  · exact h

/- ## The end of the program -/

theorem restart_inv {s : St} (h : Inv s) (hr : ∀ d ∈ s.dls, d.pc = .running) : Inv (restart s) := by
  have hids : allIds (restart s) = allIds s := by
    unfold allIds restart
    dsimp only
    rw [List.map_map, List.map_map]; rfl
  refine ⟨by rw [hids]; exact h.ids, List.nodup_nil, (fun d hd => nomatch hd), List.nodup_nil, (fun d hd => nomatch hd), fun y hy => ?_, fun y hy => ?_⟩
  · obtain ⟨x, hx, e⟩ := List.mem_map.mp hy
    right
    refine ⟨(fun d hd => nomatch hd), by rw [← e], ?_, ?_⟩
    · rcases h.queue x hx with ⟨d, hd, _, _, h3⟩ | ⟨_, _, h3, _⟩
      · rw [hr d hd] at h3; rw [← e]; dsimp only; rw [h3.1]; rfl
      · rw [← e]; dsimp only; rw [h3]; rfl
    · rcases h.queue x hx with ⟨d, hd, _, _, h3⟩ | ⟨_, _, _, h3⟩
      · rw [hr d hd] at h3; rw [← e]; exact h3.2
      · rw [← e]; exact h3
  · obtain ⟨x, hx, e⟩ := List.mem_map.mp hy
    rw [← e]
    refine ⟨rfl, ?_⟩
    rcases (h.history x hx).2 with h2 | h2
    · exact Or.inl h2
    · right
      dsimp only
      rcases h2 with h2 | h2 | h2 <;> (rw [h2]; unfold Failing loaded; simp)

theorem init_inv : Inv init := by
  refine ⟨by decide, by decide, ?_, by decide, ?_, ?_, ?_⟩
  · intro d hd; exact nomatch hd
  · intro d hd; exact nomatch hd
  · intro d hd; exact nomatch hd
  · intro d hd; exact nomatch hd

/- ## Schedules -/

/-- Actions of calm schedules: a retry is not one of them (see `Path.retry`), and the program does not end while a download is
being completed. -/
def Calm (s : St) (a : Act) : Prop := (∀ tid, a ≠ .finish tid .retry) ∧ (a = .restart → ∀ d ∈ s.dls, d.pc = .running)

/-- Schedules in which nobody acts between the two statements of a retry. -/
inductive Path (c : Cfg) (s : St) : List Act → St → Prop where
  | nil : Path c s [] s
  | act {l : List Act} {t : St} (a : Act) (h : Path c s l t) (hc : Calm t a) : Path c s (l ++ [a]) (step c t a)
  | retry {l : List Act} {t : St} (tid : Nat) (h : Path c s l t) : Path c s (l ++ [.finish tid .retry, .clear tid]) (clear (finish t tid .retry) tid)

/- They are schedules. -/
theorem Path.run {c : Cfg} {s t : St} {l : List Act} (h : Path c s l t) : UrlFetch.run c s l = t := by
  have app : ∀ (l l2 : List Act) (s : St), UrlFetch.run c s (l ++ l2) = UrlFetch.run c (UrlFetch.run c s l) l2 := by
    intro l
    induction l with
    | nil => intro l2 s; rfl
    | cons a l ih => intro l2 s; exact ih l2 _
  induction h with
  | nil => rfl
  | act a h hc ih => rw [app, ih]; rfl
  | retry tid h ih => rw [app, ih]; rfl

theorem step_inv (c : Cfg) {s : St} (h : Inv s) {a : Act} (hc : Calm s a) : Inv (step c s a) := by
  cases a with
  | add id prio top dupe => exact add_inv c h id prio top dupe
  | start => exact start_inv c h
  | finish tid r => exact finish_inv h tid (fun e => hc.1 tid (by rw [e]))
  | clear tid => exact clear_inv h tid
  | scanned tid r => exact scanned_inv h tid r
  | report tid => exact report_inv c h tid
  | delete id final => exact delete_inv c h id final
  | again id => exact again_inv h id
  | histDelete id => exact histDelete_inv h id
  | setPrio id prio => exact flags_inv h id (f := fun x => { x with prio := prio }) (fun y => ⟨rfl, rfl, rfl, rfl⟩) rfl rfl rfl rfl rfl rfl
  | restart => exact restart_inv h (hc.2 rfl)

theorem Path.inv {c : Cfg} {s t : St} {l : List Act} (h : Path c s l t) (hs : Inv s) : Inv t := by
  induction h with
  | nil => exact hs
  | act a h hc ih => exact step_inv c ih hc
  | retry tid h ih => exact retry_inv ih tid

end Verif.UrlFetch
