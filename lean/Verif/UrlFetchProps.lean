import Verif.UrlFetchInv
/-
C97: fetching of nzb-files from URLs. What an added URL becomes, in every schedule of the threads which fetch, of the
user's requests and of ends of the program.
-/
namespace Verif.UrlFetch

/- ## Not more downloads than allowed -/

theorem listed_goto (s : St) (tid : Nat) {pc : Pc} (h : pc ≠ .running) : (listed (goto s tid pc)).length ≤ (listed s).length := by
  unfold listed goto
  dsimp only
  induction s.dls with
  | nil => exact Nat.le_refl _
  | cons d l ih =>
    rw [List.map_cons, List.filter_cons, List.filter_cons]
    by_cases h1 : d.tid = tid
    · rw [if_pos h1]
      dsimp only
      rw [if_neg (by simp [h])]
      split
      · exact Nat.le_succ_of_le ih
      · exact ih
    · rw [if_neg h1]
      split
      · exact Nat.succ_le_succ ih
      · exact ih

theorem listed_end (s : St) (tid : Nat) : (listed (endThread s tid)).length ≤ (listed s).length := by
  unfold listed endThread
  exact ((List.filter_sublist (l := s.dls) (p := fun d => decide (d.tid ≠ tid))).filter _).length_le

theorem listed_step (c : Cfg) (s : St) (a : Act) (h : (listed s).length ≤ c.limit) : (listed (step c s a)).length ≤ c.limit := by
  have same : ∀ {s' : St}, s'.dls = s.dls → (listed s').length ≤ c.limit := by
    intro s' e; unfold listed; rw [e]; exact h
  cases a with
  | add id prio top dupe =>
    apply same
    show (add c s id prio top dupe).dls = s.dls
    unfold add
    split
    · rfl
    · split
      · exact (leave_queue c s _).2.1
      · split <;> rfl
  | start =>
    show (listed (start c s)).length ≤ c.limit
    unfold start
    split
    · rename_i hl
      split
      · unfold listed startOn
        dsimp only
        rw [List.filter_append, List.length_append]
        have : (listed s).length = (List.filter (fun d => decide (d.pc = Pc.running)) s.dls).length := rfl
        rw [← this]
        exact hl
      · exact h
    · exact h
  | finish tid r =>
    show (listed (finish s tid r)).length ≤ c.limit
    unfold finish
    split
    · rename_i d _
      split
      · split
        · dsimp only
          have : ∀ pc : Pc, pc ≠ .running → (listed (goto (s.write d.item (mark r)) tid pc)).length ≤ c.limit :=
            fun pc hp => Nat.le_trans (listed_goto _ tid hp) h
          split
          · exact this _ (fun e => nomatch e)
          · split
            · exact this _ (fun e => nomatch e)
            · exact this _ (fun e => nomatch e)
        · exact h
      · exact h
    · exact h
  | clear tid =>
    show (listed (clear s tid)).length ≤ c.limit
    unfold clear
    split
    · split
      · exact Nat.le_trans (listed_end _ tid) h
      · exact h
    · exact h
  | scanned tid r =>
    show (listed (scanned s tid r)).length ≤ c.limit
    unfold scanned
    split
    · split
      · split
        · exact Nat.le_trans (listed_end _ tid) h
        · exact Nat.le_trans (listed_goto _ tid (fun e => nomatch e)) h
        · exact Nat.le_trans (listed_goto _ tid (fun e => nomatch e)) h
      · exact h
    · exact h
  | report tid =>
    show (listed (report c s tid)).length ≤ c.limit
    unfold report
    split
    · split
      · split
        · refine Nat.le_trans (listed_end _ tid) ?_
          exact same (leave_queue c s _).2.1
        · exact h
      · exact h
    · exact h
  | delete id final =>
    apply same
    show (delete c s id final).1.dls = s.dls
    unfold delete
    split
    · split
      · rfl
      · exact (leave_queue c s _).2.1
    · rfl
  | again id =>
    apply same
    show (again s id).dls = s.dls
    unfold again
    split <;> rfl
  | histDelete id =>
    apply same
    show (histDelete s id).dls = s.dls
    unfold histDelete
    split <;> rfl
  | setPrio id prio => exact same rfl
  | restart => exact Nat.zero_le _

theorem listed_run (c : Cfg) (l : List Act) : ∀ (s : St), (listed s).length ≤ c.limit → (listed (run c s l)).length ≤ c.limit := by
  induction l with
  | nil => intro s h; exact h
  | cons a l ih => intro s h; exact ih _ (listed_step c s a h)

/-- C97: never more URLs are fetched at the same time than allowed, in all schedules. -/
theorem limit_kept (c : Cfg) (l : List Act) : ((run c init l).dls.filter (fun d => d.pc = .running)).length ≤ c.limit :=
  listed_run c l init (Nat.zero_le _)

/- The limit is reached. -/
example : ((run ⟨2, true⟩ init [.add 1 0 false false, .add 2 0 false false, .add 3 0 false false, .start, .start, .start]).dls.filter
    (fun d => d.pc = .running)).length = 2 := by decide +kernel

/- ## Which URL is next -/

theorem getNext_best (l : List Item) : ∀ (b : Option Item), (∀ x, b = some x → waiting x = true) →
    match getNext b l with
    | none => b = none ∧ ∀ x ∈ l, waiting x = false
    | some x => waiting x = true ∧
      ((b = some x ∧ ∀ y ∈ l, waiting y = true → y.prio ≤ x.prio) ∨
       (∃ l1 l2, l = l1 ++ x :: l2 ∧ (∀ y, b = some y → y.prio < x.prio) ∧ (∀ y ∈ l1, waiting y = true → y.prio < x.prio) ∧
         ∀ y ∈ l2, waiting y = true → y.prio ≤ x.prio)) := by
  induction l with
  | nil =>
    intro b hb
    cases b with
    | none => exact ⟨rfl, fun x hx => nomatch hx⟩
    | some x => exact ⟨hb x rfl, Or.inl ⟨rfl, fun y hy => nomatch hy⟩⟩
  | cons z l ih =>
    intro b hb
    unfold getNext
    by_cases hc : (waiting z && better b z) = true
    · rw [if_pos hc]
      obtain ⟨hz, hbet⟩ := Bool.and_eq_true_iff.mp hc
      have := ih (some z) (fun x e => by cases e; exact hz)
      have hbz : ∀ y, b = some y → y.prio < z.prio := by
        intro y e
        rw [e] at hbet
        exact of_decide_eq_true hbet
      split at this
      · exact nomatch this.1
      · rename_i x hx
        refine ⟨this.1, Or.inr ?_⟩
        rcases this.2 with ⟨e, h2⟩ | ⟨l1, l2, e, h1, h2, h3⟩
        · cases e
          exact ⟨[], l, rfl, hbz, (fun y hy => nomatch hy), h2⟩
        · have hzx : z.prio < x.prio := h1 z rfl
          refine ⟨z :: l1, l2, by rw [e]; rfl, fun y hy => Int.lt_trans (hbz y hy) hzx, ?_, h3⟩
          intro y hy hw
          rcases List.mem_cons.mp hy with hy | hy
          · rw [hy]; exact hzx
          · exact h2 y hy hw
    · rw [if_neg hc]
      have := ih b hb
      split at this
      · refine ⟨this.1, fun x hx => ?_⟩
        rcases List.mem_cons.mp hx with hx | hx
        · rw [this.1] at hc
          cases hw : waiting z with
          | true => rw [hw] at hc; exact absurd rfl hc
          | false => rw [hx, hw]
        · exact this.2 x hx
      · rename_i x hx
        have hz : waiting z = true → ∀ y, b = some y → z.prio ≤ y.prio := by
          intro hw y e
          rw [hw, e] at hc
          have : ¬ z.prio > y.prio := fun h => hc (decide_eq_true h)
          omega
        have hbs : waiting z = true → b ≠ none := by
          intro hw e
          rw [hw, e] at hc; exact hc rfl
        refine ⟨this.1, ?_⟩
        rcases this.2 with ⟨e, h2⟩ | ⟨l1, l2, e, h1, h2, h3⟩
        · left
          refine ⟨e, fun y hy hw => ?_⟩
          rcases List.mem_cons.mp hy with hy | hy
          · rw [hy] at hw ⊢; exact hz hw x e
          · exact h2 y hy hw
        · right
          refine ⟨z :: l1, l2, by rw [e]; rfl, h1, ?_, h3⟩
          intro y hy hw
          rcases List.mem_cons.mp hy with hy | hy
          · rw [hy] at hw ⊢
            cases b with
            | none => exact absurd rfl (hbs hw)
            | some w => exact Int.lt_of_le_of_lt (hz hw w rfl) (h1 w rfl)
          · exact h2 y hy hw

/-- C97: a download starts exactly if one is allowed and a URL waits. It is the first in the queue of those with the highest
priority. -/
theorem next_is_best (c : Cfg) (s : St) :
    (start c s = s ∧ (c.limit ≤ (listed s).length ∨ ∀ x ∈ s.queue, ¬ (x.status = .none ∧ x.del = false))) ∨
    ((listed s).length < c.limit ∧ ∃ l1 x l2, s.queue = l1 ++ x :: l2 ∧ x.status = .none ∧ x.del = false ∧
      (∀ y ∈ l1, y.status = .none → y.del = false → y.prio < x.prio) ∧ (∀ y ∈ l2, y.status = .none → y.del = false → y.prio ≤ x.prio) ∧
      (start c s).dls = s.dls ++ [⟨s.next, x.id, .running⟩]) := by
  have hw : ∀ y : Item, waiting y = true ↔ y.status = .none ∧ y.del = false := by
    intro y
    unfold waiting
    rw [Bool.and_eq_true, decide_eq_true_iff, Bool.not_eq_true']
  unfold start
  by_cases hl : (listed s).length < c.limit
  · rw [if_pos hl]
    have := getNext_best s.queue none (fun x e => nomatch e)
    split at this
    · rename_i hg
      rw [hg]
      left
      refine ⟨rfl, Or.inr fun x hx h => ?_⟩
      have h2 := this.2 x hx
      rw [(hw x).mpr h] at h2
      exact nomatch h2
    · rename_i x hg
      rw [hg]
      right
      rcases this.2 with ⟨e, _⟩ | ⟨l1, l2, e, _, h2, h3⟩
      · exact nomatch e
      · exact ⟨hl, l1, x, l2, e, ((hw x).mp this.1).1, ((hw x).mp this.1).2, fun y hy h4 h5 => h2 y hy ((hw y).mpr ⟨h4, h5⟩),
          fun y hy h4 h5 => h3 y hy ((hw y).mpr ⟨h4, h5⟩), rfl⟩
  · rw [if_neg hl]
    left
    exact ⟨rfl, Or.inl (Nat.le_of_not_lt hl)⟩

example : (start ⟨4, true⟩ (run ⟨4, true⟩ init [.add 1 0 false false, .add 2 50 false false, .add 3 50 false false])).dls = [⟨1, 2, .running⟩] := by
  decide +kernel

/- ## One thread for a URL -/

/-- C97: no URL is fetched twice at the same time, and what is fetched is still in the queue. Missing are schedules in which
someone acts between the two statements of a retry (see `freed_while_fetching`), and ends of the program between the end of a
download and its report (see `restart_stuck`). -/
theorem one_fetch_per_url_partial (c : Cfg) {l : List Act} {s : St} (h : Path c init l s) :
    (∀ d ∈ s.dls, ∃ x ∈ s.queue, x.id = d.item) ∧ ∀ d ∈ s.dls, ∀ e ∈ s.dls, d.item = e.item → d = e := by
  have hi := h.inv init_inv
  refine ⟨fun d hd => ?_, fun d hd e he hde => hi.thread_unique hd he hde⟩
  obtain ⟨x, hx, e, _⟩ := hi.item_of hd
  exact ⟨x, hx, e⟩

/-- C97: each URL in the queue waits to be fetched, or a thread fetches it or completes its download. -/
theorem waits_or_fetched_partial (c : Cfg) {l : List Act} {s : St} (h : Path c init l s) :
    ∀ x ∈ s.queue, (x.status = .none ∧ x.del = false) ∨ ∃ d ∈ s.dls, d.item = x.id := by
  intro x hx
  rcases (h.inv init_inv).queue x hx with ⟨d, hd, e, _⟩ | ⟨_, _, h1, h2⟩
  · exact Or.inr ⟨d, hd, e⟩
  · exact Or.inl ⟨h1, h2⟩

/-- C97: each URL in the history says why: it was deleted, or its download or scan failed. -/
theorem history_has_reason_partial (c : Cfg) {l : List Act} {s : St} (h : Path c init l s) :
    ∀ x ∈ s.history, x.del = true ∨ x.status = .failed ∨ x.status = .scanFailed ∨ x.status = .scanSkipped :=
  fun x hx => ((h.inv init_inv).history x hx).2

/- ## Nothing is lost -/

theorem finish_ids (s : St) (tid : Nat) (r : Result) : allIds (finish s tid r) = allIds s := by
  have : ∀ (d : Dl) (pc : Pc), allIds (goto (s.write d.item (mark r)) tid pc) = allIds s := by
    intro d pc
    unfold allIds goto St.write
    dsimp only
    rw [upd_ids (mark_id r), upd_ids (mark_id r)]
  unfold finish
  split
  · rename_i d _
    split
    · split
      · dsimp only
        split
        · exact this d _
        · split
          · exact this d _
          · exact this d _
      · rfl
    · rfl
  · rfl

theorem clear_ids (s : St) (tid : Nat) : allIds (clear s tid) = allIds s := by
  unfold clear
  split
  · split
    · unfold allIds endThread St.write
      dsimp only
      rw [upd_ids (f := fun x => { x with active := false }) (fun _ => rfl), upd_ids (f := fun x => { x with active := false }) (fun _ => rfl)]
    · rfl
  · rfl

theorem step_perm (c : Cfg) {s : St} (h : Inv s) (a : Act) (ha : ∀ id prio top dupe, a ≠ .add id prio top dupe) : List.Perm (allIds s) (allIds (step c s a)) := by
  cases a with
  | add id prio top dupe => exact absurd rfl (ha id prio top dupe)
  | start =>
    show List.Perm _ (allIds (start c s))
    unfold start
    split
    · split
      · rename_i x _
        have : allIds (startOn s x) = allIds s := by
          unfold allIds startOn St.write
          dsimp only
          rw [upd_ids (f := fun x => { x with active := true, status := .running }) (fun _ => rfl),
            upd_ids (f := fun x => { x with active := true, status := .running }) (fun _ => rfl)]
        rw [this]
      · exact List.Perm.refl _
    · exact List.Perm.refl _
  | finish tid r =>
    have : allIds (step c s (.finish tid r)) = allIds s := finish_ids s tid r
    rw [this]
  | clear tid =>
    have : allIds (step c s (.clear tid)) = allIds s := clear_ids s tid
    rw [this]
  | scanned tid r =>
    show List.Perm _ (allIds (scanned s tid r))
    unfold scanned
    split
    · rename_i d hd
      obtain ⟨hd, ht⟩ := find_dl hd
      have wr : ∀ (f : Item → Item) (pc : Pc), (∀ x, (f x).id = x.id) → allIds (goto (s.write d.item f) tid pc) = allIds s := by
        intro f pc hf
        unfold allIds goto St.write
        dsimp only
        rw [upd_ids hf, upd_ids hf]
      split
      · split
        · obtain ⟨x, hx, he, _⟩ := h.item_of hd
          have hw := without_perm h.queue_ids hx
          rw [he] at hw
          refine (hw.append_right _).trans ?_
          rw [List.cons_append]
          refine List.Perm.trans ?_ ((List.Perm.append_left _ (List.perm_middle.symm)))
          exact List.perm_middle.symm
        · rw [wr (fun x => { x with status := .scanFailed }) _ (fun _ => rfl)]
        · rw [wr (fun x => { x with status := .scanSkipped }) _ (fun _ => rfl)]
      · exact List.Perm.refl _
    · exact List.Perm.refl _
  | report tid =>
    show List.Perm _ (allIds (report c s tid))
    unfold report
    split
    · split
      · split
        · rename_i x hx
          exact leave_perm c h (find_item hx).1 rfl
        · exact List.Perm.refl _
      · exact List.Perm.refl _
    · exact List.Perm.refl _
  | delete id final =>
    show List.Perm _ (allIds (delete c s id final).1)
    unfold delete
    split
    · rename_i x hx
      split
      · unfold allIds
        dsimp only
        rw [upd_ids (f := fun x => { x with deleting := true, avoid := final }) (fun _ => rfl)]
      · exact leave_perm c h (find_item hx).1 rfl
    · exact List.Perm.refl _
  | again id => exact again_perm h id
  | histDelete id => exact histDelete_perm h id
  | setPrio id prio =>
    have : allIds (step c s (.setPrio id prio)) = allIds s := by
      unfold step allIds
      dsimp only
      rw [upd_ids (f := fun x => { x with prio := prio }) (fun _ => rfl)]
    rw [this]
  | restart =>
    have : allIds (step c s .restart) = allIds s := by
      unfold step allIds restart
      dsimp only
      rw [List.map_map, List.map_map]; rfl
    rw [this]

/-- C97: each added URL is in the queue, in the history, replaced by its nzb-file or removed, and is only one of these; nothing
else is there. -/
theorem added_once_partial (c : Cfg) {l : List Act} {s : St} (h : Path c init l s) :
    (s.queue.map (·.id) ++ (s.history.map (·.id) ++ (s.nzbs ++ s.freed))).Nodup ∧
    ∀ id, id ∈ s.queue.map (·.id) ++ (s.history.map (·.id) ++ (s.nzbs ++ s.freed)) ↔ ∃ prio top dupe, Act.add id prio top dupe ∈ l := by
  refine ⟨(h.inv init_inv).ids, ?_⟩
  show ∀ id, id ∈ allIds s ↔ _
  induction h with
  | nil =>
    intro id
    exact ⟨(fun h => nomatch h), fun ⟨_, _, _, h⟩ => nomatch h⟩
  | act a h hc ih =>
    rename_i t
    intro id
    have hi := h.inv init_inv
    by_cases ha : ∃ id prio top dupe, a = .add id prio top dupe
    · obtain ⟨id2, prio, top, dupe, rfl⟩ := ha
      have key : id ∈ allIds (step c t (.add id2 prio top dupe)) ↔ id = id2 ∨ id ∈ allIds t := by
        show id ∈ allIds (add c t id2 prio top dupe) ↔ _
        rcases add_perm c (s := t) id2 prio top dupe with ⟨h1, e⟩ | ⟨_, hp⟩
        · rw [e]
          exact ⟨Or.inr, fun h2 => h2.elim (fun e => e ▸ h1) (fun h => h)⟩
        · rw [← hp.mem_iff, List.mem_cons]
      rw [key, ih id]
      constructor
      · rintro (e | ⟨p, t2, d, hm⟩)
        · rw [e]; exact ⟨prio, top, dupe, List.mem_append_right _ (List.mem_singleton.mpr rfl)⟩
        · exact ⟨p, t2, d, List.mem_append_left _ hm⟩
      · rintro ⟨p, t2, d, hm⟩
        rcases List.mem_append.mp hm with hm | hm
        · exact Or.inr ⟨p, t2, d, hm⟩
        · have := List.mem_singleton.mp hm
          cases this; exact Or.inl rfl
    · rw [← (step_perm c hi a (fun id prio top dupe e => ha ⟨id, prio, top, dupe, e⟩)).mem_iff, ih id]
      constructor
      · rintro ⟨p, t2, d, hm⟩; exact ⟨p, t2, d, List.mem_append_left _ hm⟩
      · rintro ⟨p, t2, d, hm⟩
        rcases List.mem_append.mp hm with hm | hm
        · exact ⟨p, t2, d, hm⟩
        · exact absurd ⟨id, p, t2, d, (List.mem_singleton.mp hm).symm⟩ ha
  | retry tid h ih =>
    intro id
    rw [clear_ids, finish_ids, ih id]
    constructor
    · rintro ⟨p, t2, d, hm⟩; exact ⟨p, t2, d, List.mem_append_left _ hm⟩
    · rintro ⟨p, t2, d, hm⟩
      rcases List.mem_append.mp hm with hm | hm
      · exact ⟨p, t2, d, hm⟩
      · rcases List.mem_cons.mp hm with hm | hm
        · exact nomatch hm
        · exact nomatch List.mem_singleton.mp hm

/- ## What is removed, was asked for -/

/-- Finally deleted by request. -/
def Asked (l : List Act) (id : Nat) : Prop := Act.histDelete id ∈ l ∨ Act.delete id true ∈ l

/-- What the marks say about requests. -/
def Marks (l : List Act) (s : St) : Prop :=
  (∀ x ∈ s.queue, x.avoid = true → Act.delete x.id true ∈ l) ∧ (∀ x ∈ s.history, x.avoid = false) ∧ ∀ id ∈ s.freed, Asked l id

theorem upd_marks {f : Item → Item} (hf : ∀ x, (f x).id = x.id ∧ (f x).avoid = x.avoid) {id : Nat} {q : List Item} {P : Item → Prop}
    (hP : ∀ x y : Item, x.id = y.id → x.avoid = y.avoid → P x → P y) (h : ∀ x ∈ q, P x) : ∀ x ∈ upd f id q, P x := by
  intro y hy
  obtain ⟨x, hx, hc⟩ := mem_upd hy
  rcases hc with ⟨_, e⟩ | ⟨_, e⟩
  · rw [e]; exact hP x _ (hf x).1.symm (hf x).2.symm (h x hx)
  · rw [e]; exact h x hx

theorem write_marks {f : Item → Item} (hf : ∀ x, (f x).id = x.id ∧ (f x).avoid = x.avoid) (id : Nat) {s s' : St} {l : List Act} (h : Marks l s)
    (hq : s'.queue = upd f id s.queue) (hh : s'.history = upd f id s.history) (hfr : s'.freed = s.freed) : Marks l s' := by
  refine ⟨?_, ?_, by rw [hfr]; exact h.2.2⟩
  · rw [hq]
    exact upd_marks hf (P := fun x => x.avoid = true → Act.delete x.id true ∈ l) (fun x y e1 e2 hp ha => e1 ▸ hp (e2 ▸ ha)) h.1
  · rw [hh]
    exact upd_marks hf (P := fun x => x.avoid = false) (fun x y e1 e2 hp => e2 ▸ hp) h.2.1

theorem Marks.more {l l2 : List Act} {s : St} (h : Marks l s) : Marks (l ++ l2) s :=
  ⟨fun x hx ha => List.mem_append_left _ (h.1 x hx ha), h.2.1, fun id hid => (h.2.2 id hid).imp (List.mem_append_left _) (List.mem_append_left _)⟩

theorem leave_marks {c : Cfg} (hk : c.keep = true) {l : List Act} {s : St} (h : Marks l s) {x : Item} (hx : x.avoid = true → Act.delete x.id true ∈ l) :
    Marks l (leave c s x) := by
  unfold leave
  split
  · refine ⟨fun y hy ha => h.1 y (List.mem_filter.mp hy).1 ha, fun y hy => ?_, h.2.2⟩
    rcases List.mem_cons.mp hy with e | hy
    · rw [e]
    · exact h.2.1 y hy
  · rename_i hc
    refine ⟨fun y hy ha => h.1 y (List.mem_filter.mp hy).1 ha, h.2.1, fun id hid => ?_⟩
    rcases List.mem_cons.mp hid with e | hid
    · rw [e]
      right
      apply hx
      cases ha : x.avoid with
      | true => rfl
      | false => rw [hk, ha] at hc; exact absurd rfl hc
    · exact h.2.2 id hid

theorem mark_avoid (r : Result) (x : Item) : (mark r x).avoid = x.avoid := by
  unfold mark
  split
  · rfl
  · cases r <;> rfl

theorem finish_marks {l : List Act} {s : St} (h : Marks l s) (tid : Nat) (r : Result) : Marks l (finish s tid r) := by
  unfold finish
  split
  · rename_i d _
    have : ∀ pc, Marks l (goto (s.write d.item (mark r)) tid pc) :=
      fun pc => write_marks (f := mark r) (fun x => ⟨mark_id r x, mark_avoid r x⟩) d.item h rfl rfl rfl
    split
    · split
      · dsimp only
        split
        · exact this _
        · split
          · exact this _
          · exact this _
      · exact h
    · exact h
  · exact h

theorem clear_marks {l : List Act} {s : St} (h : Marks l s) (tid : Nat) : Marks l (clear s tid) := by
  unfold clear
  split
  · rename_i d _
    split
    · exact write_marks (f := fun x => { x with active := false }) (fun x => ⟨rfl, rfl⟩) d.item h rfl rfl rfl
    · exact h
  · exact h

theorem step_marks {c : Cfg} (hk : c.keep = true) {l : List Act} {s : St} (h : Marks l s) (a : Act) : Marks (l ++ [a]) (step c s a) := by
  have hm := h.more (l2 := [a])
  have hlast : a ∈ l ++ [a] := List.mem_append_right _ (List.mem_singleton.mpr rfl)
  cases a with
  | add id prio top dupe =>
    show Marks _ (add c s id prio top dupe)
    unfold add
    split
    · exact hm
    · split
      · exact leave_marks hk hm (fun e => nomatch e)
      · split
        · refine ⟨fun y hy ha => ?_, hm.2⟩
          rcases List.mem_cons.mp hy with e | hy
          · rw [e] at ha; exact nomatch ha
          · exact hm.1 y hy ha
        · refine ⟨fun y hy ha => ?_, hm.2⟩
          rcases List.mem_append.mp hy with hy | hy
          · exact hm.1 y hy ha
          · rw [List.mem_singleton.mp hy] at ha; exact nomatch ha
  | start =>
    show Marks _ (start c s)
    unfold start
    split
    · split
      · rename_i x _
        exact write_marks (f := fun x => { x with active := true, status := .running }) (fun x => ⟨rfl, rfl⟩) x.id hm rfl rfl rfl
      · exact hm
    · exact hm
  | finish tid r => exact finish_marks hm tid r
  | clear tid => exact clear_marks hm tid
  | scanned tid r =>
    show Marks _ (scanned s tid r)
    unfold scanned
    split
    · rename_i d _
      split
      · split
        · exact ⟨fun y hy ha => hm.1 y (List.mem_filter.mp hy).1 ha, hm.2⟩
        · exact write_marks (f := fun x => { x with status := .scanFailed }) (fun x => ⟨rfl, rfl⟩) d.item hm rfl rfl rfl
        · exact write_marks (f := fun x => { x with status := .scanSkipped }) (fun x => ⟨rfl, rfl⟩) d.item hm rfl rfl rfl
      · exact hm
    · exact hm
  | report tid =>
    show Marks _ (report c s tid)
    unfold report
    split
    · split
      · split
        · rename_i x hx
          exact leave_marks hk (x := { x with active := false }) hm (fun ha => hm.1 x (find_item hx).1 ha)
        · exact hm
      · exact hm
    · exact hm
  | delete id final =>
    show Marks _ (delete c s id final).1
    unfold delete
    split
    · rename_i x hx
      obtain ⟨hx, he⟩ := find_item hx
      split
      · refine ⟨fun y hy ha => ?_, hm.2⟩
        · obtain ⟨z, hz, hc⟩ := mem_upd hy
          rcases hc with ⟨h1, e⟩ | ⟨_, e⟩
          · rw [e] at ha ⊢
            have hf : final = true := ha
            rw [hf] at hlast
            show Act.delete z.id true ∈ _
            rw [h1, hf]; exact hlast
          · rw [e] at ha ⊢; exact hm.1 z hz ha
      · exact leave_marks hk (x := { x with del := true, status := .none, deleting := false }) hm (fun ha => hm.1 x hx ha)
    · exact hm
  | again id =>
    show Marks _ (again s id)
    unfold again
    split
    · rename_i x hx
      refine ⟨fun y hy ha => ?_, fun y hy => hm.2.1 y (List.mem_filter.mp hy).1, hm.2.2⟩
      rcases List.mem_cons.mp hy with e | hy
      · rw [e] at ha
        have : x.avoid = true := ha
        rw [hm.2.1 x (find_item hx).1] at this; exact nomatch this
      · exact hm.1 y hy ha
    · exact hm
  | histDelete id =>
    show Marks _ (histDelete s id)
    unfold histDelete
    split
    · rename_i x hx
      refine ⟨hm.1, fun y hy => hm.2.1 y (List.mem_filter.mp hy).1, fun id2 hid => ?_⟩
      rcases List.mem_cons.mp hid with e | hid
      · rw [e, (find_item hx).2]; exact Or.inl hlast
      · exact hm.2.2 id2 hid
    · exact hm
  | setPrio id prio =>
    refine ⟨?_, hm.2⟩
    exact upd_marks (f := fun x => { x with prio := prio }) (fun x => ⟨rfl, rfl⟩) (P := fun x => x.avoid = true → Act.delete x.id true ∈ _) (fun x y e1 e2 hp ha => e1 ▸ hp (e2 ▸ ha)) hm.1
  | restart =>
    refine ⟨fun y hy ha => ?_, fun y hy => ?_, hm.2.2⟩
    · obtain ⟨x, hx, e⟩ := List.mem_map.mp hy
      rw [← e] at ha; exact nomatch ha
    · obtain ⟨x, hx, e⟩ := List.mem_map.mp hy
      rw [← e]

/-- C97: with a history, a URL is removed only after a request for a final deletion of it or for its deletion from the history.
Missing are the schedules which `Path` excludes. -/
theorem removed_only_on_request_partial (c : Cfg) (hk : c.keep = true) {l : List Act} {s : St} (h : Path c init l s) :
    ∀ id ∈ s.freed, Act.histDelete id ∈ l ∨ Act.delete id true ∈ l := by
  have : Marks l s := by
    induction h with
    | nil => exact ⟨(fun x hx => nomatch hx), (fun x hx => nomatch hx), (fun x hx => nomatch hx)⟩
    | act a h hc ih => exact step_marks hk ih a
    | retry tid h ih => exact clear_marks (finish_marks ih.more tid _) tid
  exact this.2.2

/- ## What was deleted is not added -/

/-- The URL is gone, or its thread will remove it. -/
def Doomed (id : Nat) (s : St) : Prop :=
  id ∈ s.history.map (·.id) ∨ id ∈ s.freed ∨
  ∃ d ∈ s.dls, d.item = id ∧ (d.pc = .report ∨ (d.pc = .running ∧ ∃ x ∈ s.queue, x.id = id ∧ x.deleting = true))

theorem Doomed.out {id : Nat} {s : St} (hi : Inv s) (h : Doomed id s) : id ∉ s.nzbs := by
  rcases h with h | h | ⟨d, hd, e, _⟩
  · exact (hi.apart_history h).2.1
  · intro h2
    have := (List.nodup_append.mp (List.nodup_append.mp (List.nodup_append.mp hi.ids).2.1).2.1).2.2 id h2
    exact this id h rfl
  · exact (hi.apart (e ▸ hi.threads d hd)).2.1

theorem Doomed.keep {id : Nat} {s s' : St} (h : Doomed id s) (hh : ∀ i ∈ s.history.map (·.id), i = id → i ∈ s'.history.map (·.id) ∨ i ∈ s'.freed)
    (hf : ∀ i ∈ s.freed, i ∈ s'.freed) (hd : ∀ d ∈ s.dls, d.item = id → d ∈ s'.dls)
    (hq : ∀ x ∈ s.queue, x.id = id → x.deleting = true → ∃ y ∈ s'.queue, y.id = id ∧ y.deleting = true) : Doomed id s' := by
  rcases h with h | h | ⟨d, h1, h2, h3⟩
  · rcases hh id h rfl with h | h
    · exact Or.inl h
    · exact Or.inr (Or.inl h)
  · exact Or.inr (Or.inl (hf id h))
  · refine Or.inr (Or.inr ⟨d, hd d h1 h2, h2, ?_⟩)
    rcases h3 with h3 | ⟨h3, x, hx, h4, h5⟩
    · exact Or.inl h3
    · exact Or.inr ⟨h3, hq x hx h4 h5⟩

theorem upd_deleting {f : Item → Item} (hf : ∀ x, (f x).id = x.id) {i id : Nat} (hd : i = id → ∀ x, x.deleting = true → (f x).deleting = true) {q : List Item} :
    ∀ x ∈ q, x.id = id → x.deleting = true → ∃ y ∈ upd f i q, y.id = id ∧ y.deleting = true := by
  intro x hx h1 h2
  by_cases h3 : x.id = i
  · exact ⟨f x, upd_mem hx h3, by rw [hf, h1], hd (by rw [← h3, h1]) x h2⟩
  · exact ⟨x, List.mem_map.mpr ⟨x, hx, by rw [if_neg h3]⟩, h1, h2⟩

theorem leave_doomed (c : Cfg) {s : St} (x : Item) : Doomed x.id (leave c s x) := by
  unfold leave
  split
  · exact Or.inl (List.mem_cons_self)
  · exact Or.inr (Or.inl List.mem_cons_self)

theorem leave_keeps (c : Cfg) {s : St} (x : Item) : (∀ i ∈ s.history.map (·.id), i ∈ (leave c s x).history.map (·.id)) ∧ ∀ i ∈ s.freed, i ∈ (leave c s x).freed := by
  unfold leave
  split
  · exact ⟨fun i h => List.mem_cons_of_mem _ h, fun i h => h⟩
  · exact ⟨fun i h => h, fun i h => List.mem_cons_of_mem _ h⟩

theorem Doomed.drop_thread {id : Nat} {s : St} (h : id ∈ s.history.map (·.id) ∨ id ∈ s.freed) (tid : Nat) : Doomed id (endThread s tid) :=
  h.elim Or.inl (fun h => Or.inr (Or.inl h))

theorem leave_gone (c : Cfg) {s : St} (x : Item) : x.id ∈ (leave c s x).history.map (·.id) ∨ x.id ∈ (leave c s x).freed := by
  unfold leave
  split
  · exact Or.inl (List.mem_cons_self)
  · exact Or.inr List.mem_cons_self

theorem report_doomed (c : Cfg) {id : Nat} {s : St} (hi : Inv s) (h : Doomed id s) (tid : Nat) : Doomed id (report c s tid) := by
  unfold report
  split
  · rename_i d hd
    obtain ⟨hd, ht⟩ := find_dl hd
    split
    · split
      · rename_i x hx
        obtain ⟨hx, he⟩ := find_item hx
        by_cases hid : x.id = id
        · have := leave_gone c (s := s) { x with active := false }
          rw [← hid]
          exact Doomed.drop_thread this tid
        · obtain ⟨l1, l2, _⟩ := leave_queue c s { x with active := false }
          obtain ⟨k1, k2⟩ := leave_keeps c (s := s) { x with active := false }
          refine h.keep (fun i hi2 _ => Or.inl (k1 i hi2)) k2 ?_ ?_
          · intro e he2 hie
            rw [mem_end, l2]
            refine ⟨he2, fun e3 => hid ?_⟩
            rw [he, ← dl_unique hi.tids he2 hd (by rw [e3, ht]), hie]
          · intro y hy h1 h2
            refine ⟨y, ?_, h1, h2⟩
            show y ∈ (leave c s _).queue
            rw [l1]
            exact mem_without.mpr ⟨hy, fun e => hid (by rw [← h1]; exact e.symm)⟩
      · exact h
    · exact h
  · exact h

theorem goto_other {s : St} {tid : Nat} {pc : Pc} {d e : Dl} (hi : (s.dls.map (·.tid)).Nodup) (hd : d ∈ s.dls) (ht : d.tid = tid) (he : e ∈ s.dls) (hne : e.item ≠ d.item) :
    e ∈ (goto s tid pc).dls := by
  refine List.mem_map.mpr ⟨e, he, ?_⟩
  rw [if_neg]
  intro e2
  exact hne (by rw [dl_unique hi he hd (by rw [e2, ht])])

theorem goto_self {s : St} {tid : Nat} {pc : Pc} {d : Dl} (hd : d ∈ s.dls) (ht : d.tid = tid) : { d with pc := pc } ∈ (goto s tid pc).dls :=
  List.mem_map.mpr ⟨d, hd, by rw [if_pos ht]⟩

theorem finish_doomed {id : Nat} {s : St} (hi : Inv s) (h : Doomed id s) (tid : Nat) (r : Result) : Doomed id (finish s tid r) := by
  unfold finish
  split
  · rename_i d hd
    obtain ⟨hd, ht⟩ := find_dl hd
    split
    · rename_i hpc
      obtain ⟨x, hx, he, ha, hrel, hfind⟩ := hi.item_of hd
      rw [hfind]
      dsimp only
      by_cases hid : d.item = id
      · -- the thread of this URL
        have hdel : x.deleting = true := by
          rcases h with h | h | ⟨d2, hd2, h2, h3⟩
          · exact absurd h (hi.apart (hid ▸ hi.threads d hd)).1
          · exact absurd h (hi.apart (hid ▸ hi.threads d hd)).2.2
          · have : d2 = d := hi.thread_unique hd2 hd (by rw [h2, hid])
            rw [this, hpc] at h3
            rcases h3 with h3 | ⟨_, y, hy, h4, h5⟩
            · exact nomatch h3
            · rw [item_unique hi.queue_ids hx hy (by rw [he, hid, h4])]; exact h5
        have hm : mark r x = { x with del := true, status := .none, deleting := false } := by unfold mark; rw [if_pos hdel]
        rw [if_neg (fun e => by rw [hdel] at e; exact nomatch e.2), if_neg (by rw [hm]; exact fun e => nomatch e)]
        exact Or.inr (Or.inr ⟨{ d with pc := .report }, goto_self (s := s.write d.item (mark r)) hd ht, hid, Or.inl rfl⟩)
      · have : ∀ pc, Doomed id (goto (s.write d.item (mark r)) tid pc) := by
          intro pc
          refine h.keep ?_ (fun i h => h) ?_ ?_
          · intro i hi2 _
            left
            show i ∈ (upd (mark r) d.item s.history).map (·.id)
            rw [upd_ids (mark_id r)]; exact hi2
          · intro e he2 h2
            exact goto_other (s := s.write d.item (mark r)) (d := d) hi.tids hd ht he2 (by rw [h2]; exact fun e => hid e.symm)
          · exact upd_deleting (mark_id r) (fun e => absurd e hid)
        split
        · exact this _
        · split
          · exact this _
          · exact this _
    · exact h
  · exact h

theorem clear_doomed {id : Nat} {s : St} (h : Doomed id s) (tid : Nat) (hc : ∀ d ∈ s.dls, d.tid = tid → d.item = id → d.pc ≠ .clear)
    (hi : (s.dls.map (·.tid)).Nodup) : Doomed id (clear s tid) := by
  unfold clear
  split
  · rename_i d hd
    obtain ⟨hd, ht⟩ := find_dl hd
    split
    · rename_i hpc
      refine h.keep ?_ (fun i h => h) ?_ ?_
      · intro i hi2 _
        left
        show i ∈ (upd _ d.item s.history).map (·.id)
        rw [upd_ids (f := fun x => { x with active := false }) (fun _ => rfl)]; exact hi2
      · intro e he h2
        rw [mem_end]
        refine ⟨he, fun e2 => hc e he e2 h2 ?_⟩
        rw [dl_unique hi he hd (by rw [e2, ht]), hpc]
      · exact upd_deleting (f := fun x => { x with active := false }) (fun _ => rfl) (fun _ x h => h)
    · exact h
  · exact h

theorem scanned_doomed {id : Nat} {s : St} (hi : Inv s) (h : Doomed id s) (tid : Nat) (r : Added) : Doomed id (scanned s tid r) := by
  unfold scanned
  split
  · rename_i d hd
    obtain ⟨hd, ht⟩ := find_dl hd
    split
    · rename_i hpc
      have hid : d.item ≠ id := by
        intro hid
        rcases h with h | h | ⟨d2, hd2, h2, h3⟩
        · exact absurd h (hi.apart (hid ▸ hi.threads d hd)).1
        · exact absurd h (hi.apart (hid ▸ hi.threads d hd)).2.2
        · have : d2 = d := hi.thread_unique hd2 hd (by rw [h2, hid])
          rw [this, hpc] at h3
          rcases h3 with h3 | ⟨h3, _⟩
          · exact nomatch h3
          · exact nomatch h3
      have wr : ∀ (f : Item → Item), (∀ x, (f x).id = x.id) → Doomed id (goto (s.write d.item f) tid .report) := by
        intro f hf
        refine h.keep ?_ (fun i h => h) ?_ ?_
        · intro i hi2 _
          left
          show i ∈ (upd f d.item s.history).map (·.id)
          rw [upd_ids hf]; exact hi2
        · intro e he2 h2
          exact goto_other (s := s.write d.item f) (d := d) hi.tids hd ht he2 (by rw [h2]; exact fun e => hid e.symm)
        · exact upd_deleting hf (fun e => absurd e hid)
      split
      · refine h.keep (fun i hi2 _ => Or.inl hi2) (fun i h => h) ?_ ?_
        · intro e he h2
          rw [mem_end]
          refine ⟨he, fun e2 => hid ?_⟩
          rw [← h2, dl_unique hi.tids he hd (by rw [e2, ht])]
        · intro y hy h1 h2
          exact ⟨y, List.mem_filter.mpr ⟨hy, decide_eq_true (fun e => hid (by rw [← e, h1]))⟩, h1, h2⟩
      · exact wr (fun x => { x with status := .scanFailed }) (fun _ => rfl)
      · exact wr (fun x => { x with status := .scanSkipped }) (fun _ => rfl)
    · exact h
  · exact h

theorem start_doomed (c : Cfg) {id : Nat} {s : St} (h : Doomed id s) : Doomed id (start c s) := by
  unfold start
  split
  · split
    · rename_i x _
      refine h.keep ?_ (fun i h => h) (fun d hd _ => List.mem_append_left _ hd) ?_
      · intro i hi2 _
        left
        show i ∈ (upd _ x.id s.history).map (·.id)
        rw [upd_ids (f := fun x => { x with active := true, status := .running }) (fun _ => rfl)]; exact hi2
      · exact upd_deleting (f := fun x => { x with active := true, status := .running }) (fun _ => rfl) (fun _ x h => h)
    · exact h
  · exact h

theorem delete_doomed (c : Cfg) {id : Nat} {s : St} (h : Doomed id s) (id2 : Nat) (final : Bool) : Doomed id (delete c s id2 final).1 := by
  unfold delete
  split
  · rename_i x hx
    obtain ⟨hx, he⟩ := find_item hx
    split
    · exact h.keep (fun i hi2 _ => Or.inl hi2) (fun i h => h) (fun d hd _ => hd)
        (upd_deleting (f := fun x => { x with deleting := true, avoid := final }) (fun _ => rfl) (fun _ x h => rfl))
    · by_cases hid : x.id = id
      · rw [← hid]; exact leave_doomed c (s := s) { x with del := true, status := .none, deleting := false }
      · obtain ⟨l1, l2, _⟩ := leave_queue c s { x with del := true, status := .none, deleting := false }
        obtain ⟨k1, k2⟩ := leave_keeps c (s := s) { x with del := true, status := .none, deleting := false }
        refine h.keep (fun i hi2 _ => Or.inl (k1 i hi2)) k2 (fun d hd _ => by dsimp only; rw [l2]; exact hd) ?_
        intro y hy h1 h2
        refine ⟨y, ?_, h1, h2⟩
        dsimp only
        rw [l1]
        exact mem_without.mpr ⟨hy, fun e => hid (by rw [← h1]; exact e.symm)⟩
  · exact h

theorem step_doomed (c : Cfg) {id : Nat} {s : St} (hi : Inv s) (h : Doomed id s) {a : Act} (h1 : a ≠ .again id) (h2 : a ≠ .restart) :
    Doomed id (step c s a) := by
  cases a with
  | add id2 prio top dupe =>
    show Doomed id (add c s id2 prio top dupe)
    unfold add
    split
    · exact h
    · rename_i hc
      split
      · have hq : id2 ∉ s.queue.map (·.id) := fun h => fresh hc (List.mem_append_left _ h)
        obtain ⟨l1, l2, _⟩ := leave_queue c s ⟨id2, prio, .none, true, false, false, false⟩
        obtain ⟨k1, k2⟩ := leave_keeps c (s := s) ⟨id2, prio, .none, true, false, false, false⟩
        refine h.keep (fun i hi2 _ => Or.inl (k1 i hi2)) k2 (fun d hd _ => by rw [l2]; exact hd) ?_
        intro y hy h1 h2
        refine ⟨y, ?_, h1, h2⟩
        rw [l1]
        dsimp only
        rw [without_none hq]; exact hy
      · split
        · exact h.keep (fun i hi2 _ => Or.inl hi2) (fun i h => h) (fun d hd _ => hd) (fun y hy h1 h2 => ⟨y, List.mem_cons_of_mem _ hy, h1, h2⟩)
        · exact h.keep (fun i hi2 _ => Or.inl hi2) (fun i h => h) (fun d hd _ => hd) (fun y hy h1 h2 => ⟨y, List.mem_append_left _ hy, h1, h2⟩)
  | start => exact start_doomed c h
  | finish tid r => exact finish_doomed hi h tid r
  | clear tid =>
    refine clear_doomed h tid (fun d hd _ _ hpc => ?_) hi.tids
    obtain ⟨x, _, _, _, hrel, _⟩ := hi.item_of hd
    rw [hpc] at hrel; exact hrel
  | scanned tid r => exact scanned_doomed hi h tid r
  | report tid => exact report_doomed c hi h tid
  | delete id2 final => exact delete_doomed c h id2 final
  | again id2 =>
    show Doomed id (again s id2)
    unfold again
    split
    · rename_i x hx
      have hne : id2 ≠ id := fun e => h1 (by rw [e])
      refine h.keep (fun i hi2 e => Or.inl ?_) (fun i h => h) (fun d hd _ => hd) (fun y hy h1 h2 => ⟨y, List.mem_cons_of_mem _ hy, h1, h2⟩)
      obtain ⟨y, hy, e2⟩ := List.mem_map.mp hi2
      exact List.mem_map.mpr ⟨y, List.mem_filter.mpr ⟨hy, decide_eq_true (fun e3 => hne (by rw [← e3, e2, e]))⟩, e2⟩
    · exact h
  | histDelete id2 =>
    show Doomed id (histDelete s id2)
    unfold histDelete
    split
    · rename_i x hx
      refine h.keep (fun i hi2 e => ?_) (fun i h => List.mem_cons_of_mem _ h) (fun d hd _ => hd) (fun y hy h1 h2 => ⟨y, hy, h1, h2⟩)
      obtain ⟨y, hy, e2⟩ := List.mem_map.mp hi2
      by_cases hid : y.id = id2
      · right; rw [(find_item hx).2, ← e2, hid]; exact List.mem_cons_self
      · left; exact List.mem_map.mpr ⟨y, List.mem_filter.mpr ⟨hy, decide_eq_true hid⟩, e2⟩
    · exact h
  | setPrio id2 prio =>
    exact h.keep (fun i hi2 _ => Or.inl hi2) (fun i h => h) (fun d hd _ => hd)
      (upd_deleting (f := fun x => { x with prio := prio }) (fun _ => rfl) (fun _ x h => h))
  | restart => exact absurd rfl h2

theorem finish_maps (s : St) (tid : Nat) (r : Result) : (finish s tid r).dls.map (·.tid) = s.dls.map (·.tid) ∧
    (finish s tid r).dls.map (·.item) = s.dls.map (·.item) ∧ (finish s tid r).queue.map (·.id) = s.queue.map (·.id) ∧
    (finish s tid r).history.map (·.id) = s.history.map (·.id) ∧ (finish s tid r).freed = s.freed := by
  have key : ∀ (d : Dl) (pc : Pc), (goto (s.write d.item (mark r)) tid pc).dls.map (·.tid) = s.dls.map (·.tid) ∧
      (goto (s.write d.item (mark r)) tid pc).dls.map (·.item) = s.dls.map (·.item) ∧
      (goto (s.write d.item (mark r)) tid pc).queue.map (·.id) = s.queue.map (·.id) ∧
      (goto (s.write d.item (mark r)) tid pc).history.map (·.id) = s.history.map (·.id) ∧ (goto (s.write d.item (mark r)) tid pc).freed = s.freed := by
    intro d pc
    unfold goto St.write
    dsimp only
    rw [List.map_map, List.map_map, upd_ids (mark_id r), upd_ids (mark_id r)]
    refine ⟨List.map_congr_left (fun e _ => ?_), List.map_congr_left (fun e _ => ?_), rfl, rfl, rfl⟩
    · dsimp only [Function.comp]; split <;> rfl
    · dsimp only [Function.comp]; split <;> rfl
  unfold finish
  split
  · rename_i d _
    split
    · split
      · dsimp only
        split
        · exact key d _
        · split
          · exact key d _
          · exact key d _
      · exact ⟨rfl, rfl, rfl, rfl, rfl⟩
    · exact ⟨rfl, rfl, rfl, rfl, rfl⟩
  · exact ⟨rfl, rfl, rfl, rfl, rfl⟩

theorem nodup_item {l : List Dl} (hn : (l.map (·.item)).Nodup) {d e : Dl} (hd : d ∈ l) (he : e ∈ l) (hi : d.item = e.item) : d = e := by
  induction l with
  | nil => exact nomatch hd
  | cons z l ih =>
    rw [List.map_cons, List.nodup_cons] at hn
    rcases List.mem_cons.mp hd with hd | hd
    · rcases List.mem_cons.mp he with he | he
      · rw [hd, he]
      · exact absurd (List.mem_map.mpr ⟨e, he, by rw [← hi, hd]⟩) hn.1
    · rcases List.mem_cons.mp he with he | he
      · exact absurd (List.mem_map.mpr ⟨d, hd, by rw [hi, he]⟩) hn.1
      · exact ih hn.2 hd he

theorem retry_doomed {id : Nat} {s : St} (hi : Inv s) (h : Doomed id s) (tid : Nat) : Doomed id (clear (finish s tid .retry) tid) := by
  have hd := finish_doomed hi h tid .retry
  obtain ⟨m1, m2, m3, m4, m5⟩ := finish_maps s tid .retry
  refine clear_doomed hd tid (fun d hd2 _ hid hpc => ?_) (by rw [m1]; exact hi.tids)
  -- the thread of this URL does not retry
  have hq : id ∈ s.queue.map (·.id) := by
    have : d.item ∈ (finish s tid .retry).dls.map (·.item) := List.mem_map.mpr ⟨d, hd2, rfl⟩
    rw [m2] at this
    obtain ⟨e, he, e2⟩ := List.mem_map.mp this
    rw [← hid, ← e2]; exact hi.threads e he
  rcases hd with h2 | h2 | ⟨d2, hd3, h3, h4⟩
  · rw [m4] at h2; exact (hi.apart hq).1 h2
  · rw [m5] at h2; exact (hi.apart hq).2.2 h2
  · rw [nodup_item (by rw [m2]; exact hi.items) hd3 hd2 (by rw [h3, hid]), hpc] at h4
    rcases h4 with h4 | ⟨h4, _⟩
    · exact nomatch h4
    · exact nomatch h4

theorem Path.trans {c : Cfg} {s t u : St} {l l2 : List Act} (h : Path c s l t) (h2 : Path c t l2 u) : Path c s (l ++ l2) u := by
  induction h2 with
  | nil => rw [List.append_nil]; exact h
  | act a _ hc ih => rw [← List.append_assoc]; exact .act a ih hc
  | retry tid _ ih => rw [← List.append_assoc]; exact .retry tid ih

theorem Path.doomed {c : Cfg} {s t : St} {l : List Act} (h : Path c s l t) (hs : Inv s) {id : Nat} (hd : Doomed id s) (h1 : Act.again id ∉ l)
    (h2 : Act.restart ∉ l) : Doomed id t := by
  induction h with
  | nil => exact hd
  | act a h hc ih =>
    have hne : ∀ b, ∀ {l : List Act}, b ∉ l ++ [a] → a ≠ b := fun b l hb e => hb (List.mem_append_right _ (List.mem_singleton.mpr e.symm))
    exact step_doomed c (h.inv hs) (ih (fun h => h1 (List.mem_append_left _ h)) (fun h => h2 (List.mem_append_left _ h))) (hne _ h1) (hne _ h2)
  | retry tid h ih =>
    exact retry_doomed (h.inv hs) (ih (fun h => h1 (List.mem_append_left _ h)) (fun h => h2 (List.mem_append_left _ h))) tid

theorem delete_true {c : Cfg} {s : St} {id : Nat} {final : Bool} (h : (delete c s id final).2 = true) : Doomed id (delete c s id final).1 := by
  unfold delete at h ⊢
  split at h
  · rename_i x hx
    obtain ⟨hx, he⟩ := find_item hx
    split at h
    · rename_i ha
      rw [if_pos ha]
      obtain ⟨d, hd, e⟩ := List.any_eq_true.mp h
      unfold listed at hd
      obtain ⟨hd, hpc⟩ := List.mem_filter.mp hd
      refine Or.inr (Or.inr ⟨d, hd, by simpa using e, Or.inr ⟨of_decide_eq_true hpc, { x with deleting := true, avoid := final }, ?_, he, rfl⟩⟩)
      exact upd_mem (f := fun x => { x with deleting := true, avoid := final }) hx he
    · rename_i ha
      rw [if_neg ha, ← he]
      exact leave_doomed c (s := s) { x with del := true, status := .none, deleting := false }
  · exact nomatch h

/-- C97: a URL whose deletion was accepted is not added as nzb-file, whatever happens afterwards, unless it is downloaded again
on request or the program ends in between. (Both are needed: see `again_is_deleted` for the first; a restart forgets that an
active URL was deleted, `restart_forgets_deletion`.) Schedules which `Path` excludes are missing. -/
theorem deleted_not_added_partial (c : Cfg) {l l2 : List Act} {s t : St} (h : Path c init l s) {id : Nat} {final : Bool}
    (hd : (delete c s id final).2 = true) (h2 : Path c (delete c s id final).1 l2 t) (h3 : Act.again id ∉ l2) (h4 : Act.restart ∉ l2) :
    id ∉ t.nzbs := by
  have hi := delete_inv c (h.inv init_inv) id final
  exact (h2.doomed hi (delete_true hd) h3 h4).out (h2.inv hi)

/-- C97: what was added once is not fetched again, and never comes back. -/
theorem added_stays_added_partial (c : Cfg) {l l2 : List Act} {s t : St} (h : Path c init l s) (h2 : Path c s l2 t) :
    ∀ id ∈ s.nzbs, id ∈ t.nzbs ∧ ∀ d ∈ t.dls, d.item ≠ id := by
  have mono : ∀ id ∈ s.nzbs, id ∈ t.nzbs := by
    have nfin : ∀ (s : St) tid r, (finish s tid r).nzbs = s.nzbs := by
      intro s tid r
      unfold finish
      split
      · split
        · split
          · dsimp only
            split
            · rfl
            · split <;> rfl
          · rfl
        · rfl
      · rfl
    have ncl : ∀ (s : St) tid, (clear s tid).nzbs = s.nzbs := by
      intro s tid
      unfold clear
      split
      · split <;> rfl
      · rfl
    have nlv : ∀ (s : St) x, (leave c s x).nzbs = s.nzbs := by
      intro s x
      unfold leave
      split <;> rfl
    intro id hid
    induction h2 with
    | nil => exact hid
    | retry tid _ ih => rw [ncl, nfin]; exact ih
    | act a _ hc ih =>
      rename_i t _
      cases a with
      | add id2 prio top dupe =>
        show id ∈ (add c t id2 prio top dupe).nzbs
        unfold add
        split
        · exact ih
        · split
          · rw [nlv]; exact ih
          · split <;> exact ih
      | start =>
        show id ∈ (start c t).nzbs
        unfold start
        split
        · split <;> exact ih
        · exact ih
      | finish tid r => show id ∈ (finish t tid r).nzbs; rw [nfin]; exact ih
      | clear tid => show id ∈ (clear t tid).nzbs; rw [ncl]; exact ih
      | scanned tid r =>
        show id ∈ (scanned t tid r).nzbs
        unfold scanned
        split
        · split
          · split
            · exact List.mem_cons_of_mem _ ih
            · exact ih
            · exact ih
          · exact ih
        · exact ih
      | report tid =>
        show id ∈ (report c t tid).nzbs
        unfold report
        split
        · split
          · split
            · show id ∈ (leave c t _).nzbs
              rw [nlv]; exact ih
            · exact ih
          · exact ih
        · exact ih
      | delete id2 final =>
        show id ∈ (delete c t id2 final).1.nzbs
        unfold delete
        split
        · split
          · exact ih
          · show id ∈ (leave c t _).nzbs
            rw [nlv]; exact ih
        · exact ih
      | again id2 => show id ∈ (again t id2).nzbs; unfold again; split <;> exact ih
      | histDelete id2 => show id ∈ (histDelete t id2).nzbs; unfold histDelete; split <;> exact ih
      | setPrio id2 prio => exact ih
      | restart => exact ih
  intro id hid
  refine ⟨mono id hid, fun d hd e => ?_⟩
  have hi := (h.trans h2).inv init_inv
  exact (hi.apart (e ▸ hi.threads d hd)).2.1 (mono id hid)

/- ## Examples -/

/- A path with a retry, a deletion of an active URL and an added nzb-file. -/
def demo : List Act :=
  [.add 1 0 false false, .add 2 10 false false, .start, .start, .finish 1 .retry, .clear 1, .delete 1 false, .start, .finish 2 .failed, .report 2,
   .finish 3 .finished, .scanned 3 .success]

theorem demo_path : Path ⟨2, true⟩ init demo (run ⟨2, true⟩ init demo) := by
  have calm : ∀ (a : Act) (s : St), (∀ tid, a ≠ .finish tid .retry) → a ≠ .restart → Calm s a := fun a s h1 h2 => ⟨h1, fun e => absurd e h2⟩
  have p1 := Path.act (.start) (Path.act (.start) (Path.act (.add 2 10 false false) (Path.act (.add 1 0 false false) (Path.nil (c := ⟨2, true⟩) (s := init)) (calm _ _ (by simp) (by simp)))
    (calm _ _ (by simp) (by simp))) (calm _ _ (by simp) (by simp))) (calm _ _ (by simp) (by simp))
  have p2 := Path.retry 1 p1
  have p3 := Path.act (.start) (Path.act (.delete 1 false) p2 (calm _ _ (by simp) (by simp))) (calm _ _ (by simp) (by simp))
  have p4 := Path.act (.report 2) (Path.act (.finish 2 .failed) p3 (calm _ _ (by simp) (by simp))) (calm _ _ (by simp) (by simp))
  have p5 := Path.act (.scanned 3 .success) (Path.act (.finish 3 .finished) p4 (calm _ _ (by simp) (by simp))) (calm _ _ (by simp) (by simp))
  exact p5

example : (run ⟨2, true⟩ init demo).nzbs = [2] ∧ (run ⟨2, true⟩ init demo).queue = [] ∧
    (run ⟨2, true⟩ init demo).history.map (fun x => (x.id, x.del)) = [(1, true)] := by decide +kernel

/- ## What goes wrong -/

/-- C97 (violated): a thread acts between the two statements of a retry: the URL is started again, loses its mark of an active
download, is deleted and removed while it is fetched. The thread goes on with freed memory. -/
theorem freed_while_fetching : ∃ d ∈ (run ⟨4, true⟩ init [.add 1 0 false false, .start, .finish 1 .retry, .start, .clear 1, .delete 1 false, .histDelete 1]).dls,
    d.item = 1 ∧ d.pc = .running ∧ 1 ∈ (run ⟨4, true⟩ init [.add 1 0 false false, .start, .finish 1 .retry, .start, .clear 1, .delete 1 false, .histDelete 1]).freed := by
  refine ⟨⟨2, 1, .running⟩, ?_⟩
  decide +kernel

/-- C97 (violated): the user deletes a URL after its download and before it is added. The request is not an error for the user
(QueueEditor.cpp ignores the result), but the nzb-file is added. -/
theorem deleted_is_added : 1 ∈ (run ⟨4, true⟩ init [.add 1 0 false false, .start, .finish 1 .finished, .delete 1 false, .scanned 1 .success]).nzbs := by
  decide +kernel

/-- C97 (violated): a deletion during the report of a failure is remembered in the history: when the user asks to download the URL
again, it is downloaded and then deleted. -/
theorem again_is_deleted : ∃ x ∈ (run ⟨4, true⟩ init [.add 1 0 false false, .start, .finish 1 .failed, .delete 1 false, .report 1, .again 1, .start,
    .finish 2 .finished, .report 2]).history, x.id = 1 ∧ x.del = true := by
  refine ⟨⟨1, 0, .none, true, false, false, false⟩, ?_⟩
  decide +kernel

/-- C97 (violated): the final deletion of a URL which waits moves it to the history. -/
theorem final_delete_goes_to_history (c : Cfg) (hk : c.keep = true) {s : St} {x : Item} {id : Nat} (hx : s.queue.find? (fun x => x.id == id) = some x)
    (ha : x.active = false) (hv : x.avoid = false) : ∃ y ∈ (delete c s id true).1.history, y.id = id := by
  unfold delete
  rw [hx]
  dsimp only
  rw [if_neg (by rw [ha]; exact Bool.false_ne_true)]
  unfold leave
  rw [if_pos (by rw [hk, hv]; rfl)]
  exact ⟨_, List.mem_cons_self, (find_item hx).2⟩

example : ∃ x, (run ⟨4, true⟩ init [.add 1 0 false false]).queue.find? (fun x => x.id == 1) = some x ∧ x.active = false ∧ x.avoid = false :=
  ⟨⟨1, 0, .none, false, false, false, false⟩, by decide +kernel⟩

/-- C97 (violated): the program ends while an active URL is being deleted: after the restart it is fetched and added. -/
theorem restart_forgets_deletion : (delete ⟨4, true⟩ (run ⟨4, true⟩ init [.add 1 0 false false, .start]) 1 false).2 = true ∧
    1 ∈ (run ⟨4, true⟩ init [.add 1 0 false false, .start, .delete 1 false, .restart, .start, .finish 2 .finished, .scanned 2 .success]).nzbs := by
  decide +kernel

/-- A URL in the queue which nobody fetches and which does not wait. -/
def Stuck (id : Nat) (s : St) : Prop :=
  (∀ d ∈ s.dls, d.item ≠ id) ∧ (∃ x ∈ s.queue, x.id = id) ∧ (∀ x ∈ s.queue, x.id = id → x.del = true ∨ Failing x.status) ∧ ∀ x ∈ s.history, x.id ≠ id

theorem Stuck.write {id i : Nat} {s s' : St} (h : Stuck id s) {f : Item → Item} (hf : ∀ x, (f x).id = x.id) (hi : i = id → ∀ x, (f x).status = x.status ∧ (f x).del = x.del)
    (hq : s'.queue = upd f i s.queue) (hh : s'.history = upd f i s.history ∨ s'.history = s.history) (hd : ∀ d ∈ s'.dls, d.item ≠ id) : Stuck id s' := by
  refine ⟨hd, ?_, ?_, ?_⟩
  · obtain ⟨x, hx, e⟩ := h.2.1
    have : x.id ∈ s'.queue.map (·.id) := by rw [hq, upd_ids hf]; exact List.mem_map.mpr ⟨x, hx, rfl⟩
    obtain ⟨y, hy, e2⟩ := List.mem_map.mp this
    exact ⟨y, hy, by rw [e2, e]⟩
  · intro y hy hid
    rw [hq] at hy
    obtain ⟨z, hz, hc⟩ := mem_upd hy
    rcases hc with ⟨h1, e⟩ | ⟨_, e⟩
    · have hzid : z.id = id := by rw [← hf z, ← e]; exact hid
      rw [e, (hi (by rw [← h1, hzid]) z).1, (hi (by rw [← h1, hzid]) z).2]
      exact h.2.2.1 z hz hzid
    · rw [e] at hid ⊢; exact h.2.2.1 z hz hid
  · rcases hh with hh | hh
    · intro y hy
      rw [hh] at hy
      obtain ⟨z, hz, hc⟩ := mem_upd hy
      rcases hc with ⟨_, e⟩ | ⟨_, e⟩
      · rw [e, hf]; exact h.2.2.2 z hz
      · rw [e]; exact h.2.2.2 z hz
    · rw [hh]; exact h.2.2.2

theorem Stuck.without {id : Nat} {s s' : St} (h : Stuck id s) {i : Nat} (hi : i ≠ id) (hq : s'.queue = without s.queue i) (hd : ∀ d ∈ s'.dls, d.item ≠ id)
    (hh : ∀ x ∈ s'.history, x ∈ s.history ∨ x.id = i) : Stuck id s' := by
  refine ⟨hd, ?_, ?_, ?_⟩
  · obtain ⟨x, hx, e⟩ := h.2.1
    exact ⟨x, by rw [hq]; exact mem_without.mpr ⟨hx, by rw [e]; exact fun e => hi e.symm⟩, e⟩
  · intro x hx e
    rw [hq] at hx
    exact h.2.2.1 x (mem_without.mp hx).1 e
  · intro x hx
    rcases hh x hx with hx | e
    · exact h.2.2.2 x hx
    · rw [e]; exact hi

theorem goto_items {s : St} {tid id : Nat} {pc : Pc} (h : ∀ d ∈ s.dls, d.item ≠ id) : ∀ d ∈ (goto s tid pc).dls, d.item ≠ id := by
  intro d hd
  obtain ⟨e, he, e2⟩ := List.mem_map.mp hd
  have := h e he
  rw [← e2]
  split <;> exact this

theorem step_stuck (c : Cfg) {id : Nat} {s : St} (h : Stuck id s) {a : Act} (ha : ∀ f, a ≠ .delete id f) : Stuck id (step c s a) := by
  have hend : ∀ tid, ∀ d ∈ (endThread s tid).dls, d.item ≠ id := fun tid d hd => h.1 d (mem_end.mp hd).1
  cases a with
  | add id2 prio top dupe =>
    show Stuck id (add c s id2 prio top dupe)
    unfold add
    split
    · exact h
    · rename_i hc
      have hne : id2 ≠ id := by
        intro e
        obtain ⟨x, hx, e2⟩ := h.2.1
        exact fresh hc (List.mem_append_left _ (by rw [e, ← e2]; exact List.mem_map.mpr ⟨x, hx, rfl⟩))
      split
      · refine h.without (i := id2) hne (leave_queue c s _).1 (by rw [(leave_queue c s _).2.1]; exact h.1) (fun x hx => ?_)
        rcases leave_history c s _ x hx with hx | hx
        · exact Or.inl hx
        · rw [hx]; exact Or.inr rfl
      · have grow : ∀ q : List Item, (∀ y, y ∈ q ↔ y ∈ s.queue ∨ y.id = id2 ∧ y ∈ q) → (∀ y ∈ s.queue, y ∈ q) → Stuck id { s with queue := q } := by
          intro q h1 h2
          refine ⟨h.1, ?_, ?_, h.2.2.2⟩
          · obtain ⟨x, hx, e⟩ := h.2.1
            exact ⟨x, h2 x hx, e⟩
          · intro x hx e
            rcases (h1 x).mp hx with hx | ⟨hx, _⟩
            · exact h.2.2.1 x hx e
            · exact absurd (by rw [← hx, e]) hne
        split
        · refine grow _ (fun y => ?_) (fun y hy => List.mem_cons_of_mem _ hy)
          rw [List.mem_cons]
          constructor
          · rintro (e | hy)
            · exact Or.inr ⟨by rw [e], Or.inl e⟩
            · exact Or.inl hy
          · rintro (hy | ⟨_, hy⟩)
            · exact Or.inr hy
            · exact hy
        · refine grow _ (fun y => ?_) (fun y hy => List.mem_append_left _ hy)
          rw [List.mem_append, List.mem_singleton]
          constructor
          · rintro (hy | e)
            · exact Or.inl hy
            · exact Or.inr ⟨by rw [e], Or.inr e⟩
          · rintro (hy | ⟨_, hy⟩)
            · exact Or.inl hy
            · exact hy
  | start =>
    show Stuck id (start c s)
    unfold start
    split
    · split
      · rename_i x hx
        obtain ⟨hx, hw⟩ := (getNext_mem s.queue none hx).resolve_left (fun h => nomatch h)
        have hne : x.id ≠ id := by
          intro e
          unfold waiting at hw
          simp only [Bool.and_eq_true, decide_eq_true_eq, Bool.not_eq_true'] at hw
          have := h.2.2.1 x hx e
          unfold Failing at this
          rw [hw.1, hw.2] at this
          simp at this
        refine h.write (f := fun x => { x with active := true, status := .running }) (i := x.id) (fun _ => rfl) (fun e => absurd e hne) rfl (Or.inl rfl) ?_
        intro d hd
        rcases List.mem_append.mp hd with hd | hd
        · exact h.1 d hd
        · rw [List.mem_singleton.mp hd]; exact hne
      · exact h
    · exact h
  | finish tid r =>
    show Stuck id (finish s tid r)
    unfold finish
    split
    · rename_i d hd
      have hne := h.1 d (find_dl hd).1
      have : ∀ pc, Stuck id (goto (s.write d.item (mark r)) tid pc) := fun pc =>
        h.write (f := mark r) (i := d.item) (mark_id r) (fun e => absurd e hne) rfl (Or.inl rfl) (goto_items (s := s.write d.item (mark r)) h.1)
      split
      · split
        · dsimp only
          split
          · exact this _
          · split
            · exact this _
            · exact this _
        · exact h
      · exact h
    · exact h
  | clear tid =>
    show Stuck id (clear s tid)
    unfold clear
    split
    · rename_i d hd
      split
      · exact h.write (f := fun x => { x with active := false }) (i := d.item) (fun _ => rfl) (fun _ x => ⟨rfl, rfl⟩) rfl (Or.inl rfl) (hend tid)
      · exact h
    · exact h
  | scanned tid r =>
    show Stuck id (scanned s tid r)
    unfold scanned
    split
    · rename_i d hd
      have hne := h.1 d (find_dl hd).1
      split
      · split
        · exact h.without (i := d.item) hne rfl (hend tid) (fun x hx => Or.inl hx)
        · exact h.write (f := fun x => { x with status := .scanFailed }) (i := d.item) (fun _ => rfl) (fun e => absurd e hne) rfl (Or.inl rfl)
            (goto_items (s := s.write d.item _) h.1)
        · exact h.write (f := fun x => { x with status := .scanSkipped }) (i := d.item) (fun _ => rfl) (fun e => absurd e hne) rfl (Or.inl rfl)
            (goto_items (s := s.write d.item _) h.1)
      · exact h
    · exact h
  | report tid =>
    show Stuck id (report c s tid)
    unfold report
    split
    · rename_i d hd
      have hne := h.1 d (find_dl hd).1
      split
      · split
        · rename_i x hx
          have he := (find_item hx).2
          obtain ⟨l1, l2, _⟩ := leave_queue c s { x with active := false }
          refine h.without (i := x.id) (by rw [he]; exact hne) l1 (fun e he => ?_) (fun y hy => ?_)
          · have := (mem_end.mp he).1
            rw [l2] at this
            exact h.1 e this
          · rcases leave_history c s _ y hy with hy | hy
            · exact Or.inl hy
            · rw [hy]; exact Or.inr rfl
        · exact h
      · exact h
    · exact h
  | delete id2 final =>
    have hne : id2 ≠ id := fun e => ha final (by rw [e])
    show Stuck id (delete c s id2 final).1
    unfold delete
    split
    · rename_i x hx
      have he := (find_item hx).2
      split
      · exact h.write (f := fun x => { x with deleting := true, avoid := final }) (i := id2) (fun _ => rfl) (fun e => absurd e hne) rfl (Or.inr rfl) h.1
      · refine h.without (i := x.id) (by rw [he]; exact hne) (leave_queue c s _).1 (by dsimp only; rw [(leave_queue c s _).2.1]; exact h.1) (fun y hy => ?_)
        rcases leave_history c s _ y hy with hy | hy
        · exact Or.inl hy
        · rw [hy]; exact Or.inr rfl
    · exact h
  | again id2 =>
    show Stuck id (again s id2)
    unfold again
    split
    · rename_i x hx
      obtain ⟨hx, he⟩ := find_item hx
      refine ⟨h.1, ?_, ?_, fun y hy => h.2.2.2 y (List.mem_filter.mp hy).1⟩
      · obtain ⟨y, hy, e⟩ := h.2.1
        exact ⟨y, List.mem_cons_of_mem _ hy, e⟩
      · intro y hy e
        rcases List.mem_cons.mp hy with hy | hy
        · rw [hy] at e; exact absurd e (h.2.2.2 x hx)
        · exact h.2.2.1 y hy e
    · exact h
  | histDelete id2 =>
    show Stuck id (histDelete s id2)
    unfold histDelete
    split
    · exact ⟨h.1, h.2.1, h.2.2.1, fun y hy => h.2.2.2 y (List.mem_filter.mp hy).1⟩
    · exact h
  | setPrio id2 prio =>
    exact h.write (f := fun x => { x with prio := prio }) (i := id2) (fun _ => rfl) (fun _ x => ⟨rfl, rfl⟩) rfl (Or.inr rfl) h.1
  | restart =>
    refine ⟨(fun d hd => nomatch hd), ?_, ?_, ?_⟩
    · obtain ⟨x, hx, e⟩ := h.2.1
      exact ⟨_, List.mem_map.mpr ⟨x, hx, rfl⟩, e⟩
    · intro y hy hid
      obtain ⟨x, hx, e⟩ := List.mem_map.mp hy
      rw [← e] at hid ⊢
      rcases h.2.2.1 x hx hid with h2 | h2
      · exact Or.inl h2
      · right
        dsimp only
        rcases h2 with h2 | h2 | h2 <;> (rw [h2]; unfold Failing loaded; simp)
    · intro y hy
      obtain ⟨x, hx, e⟩ := List.mem_map.mp hy
      rw [← e]; exact h.2.2.2 x hx

/-- C97 (violated): the program ends while the failure of a URL is reported: the URL remains in the queue but is never fetched
again nor moved to the history, whatever happens, unless the user deletes it. -/
theorem restart_stuck (c : Cfg) (l : List Act) (hl : ∀ f, Act.delete 1 f ∉ l) :
    let s := run ⟨4, true⟩ init [.add 1 0 false false, .start, .finish 1 .failed, .restart]
    (∃ x ∈ (run c s l).queue, x.id = 1) ∧ ∀ d ∈ (run c s l).dls, d.item ≠ 1 := by
  intro s
  have hs : Stuck 1 s := by
    unfold Stuck Failing
    decide +kernel
  have key : ∀ (l : List Act) (s : St), Stuck 1 s → (∀ f, Act.delete 1 f ∉ l) → Stuck 1 (run c s l) := by
    intro l
    induction l with
    | nil => intro s h _; exact h
    | cons a l ih =>
      intro s h hl
      exact ih _ (step_stuck c h (fun f e => hl f (by rw [e]; exact List.mem_cons_self))) (fun f hm => hl f (List.mem_cons_of_mem _ hm))
  have := key l s hs hl
  exact ⟨this.2.1, this.1⟩

end Verif.UrlFetch
