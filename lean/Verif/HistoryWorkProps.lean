import Verif.HistoryWork
import Verif.DupeProps
/-
Property C56: what the clean-up of the history and the marks do.
-/
namespace Verif.HistoryWork
open Verif.Dupe

/-- The entry after a decision, if it remains. -/
def after {α : Type} (act : α → Act α) (e : α) : Option α :=
  match act e with
  | .keep => some e
  | .replace x => some x
  | .erase => none

theorem revLoop_spec {α : Type} (act : α → Act α) (l : List α) : ∀ suf fuel, l.length ≤ fuel →
    revLoop act fuel (l.reverse ++ suf) suf.length suf.length = some ((l.filterMap (after act)).reverse ++ suf) := by
  induction l with
  | nil =>
    intro suf fuel _
    cases fuel <;> simp [revLoop]
  | cons e l ih =>
    intro suf fuel hf
    cases fuel with
    | zero => simp at hf
    | succ fuel =>
      have hf' : l.length ≤ fuel := by simpa using hf
      have happ : (e :: l).reverse ++ suf = l.reverse ++ e :: suf := by simp
      have hlen : (l.reverse ++ e :: suf).length - 1 - suf.length = l.reverse.length := by simp
      have hlt : suf.length < (l.reverse ++ e :: suf).length := by
        simp only [List.length_append, List.length_cons]; omega
      unfold revLoop
      rw [happ, if_neg (by omega), if_neg (by omega), hlen, List.getElem?_append_right (Nat.le_refl _), Nat.sub_self, List.getElem?_cons_zero]
      dsimp only
      cases ha : act e with
      | keep =>
        dsimp only
        have := ih (e :: suf) fuel hf'
        rw [List.length_cons] at this
        rw [this, List.filterMap_cons_some (show after act e = some e by rw [after, ha])]
        simp
      | replace x =>
        dsimp only
        rw [if_pos hlt, List.set_append_right _ _ (Nat.le_refl _), Nat.sub_self, List.set_cons_zero]
        have := ih (x :: suf) fuel hf'
        rw [List.length_cons] at this
        rw [this, List.filterMap_cons_some (show after act e = some x by rw [after, ha])]
        simp
      | erase =>
        dsimp only
        rw [if_pos hlt, List.eraseIdx_append_of_length_le (Nat.le_refl _), Nat.sub_self, List.eraseIdx_cons_zero]
        rw [ih suf fuel hf', List.filterMap_cons_none (show after act e = none by rw [after, ha])]

/-- The loop handles every entry once and keeps the order. -/
theorem reverse_loop {α : Type} (act : α → Act α) (h : List α) : revLoop act h.length h 0 0 = some (h.filterMap (after act)) := by
  have := revLoop_spec act h.reverse [] h.length (by simp)
  simpa [List.filterMap_reverse] using this

/-- The specification of the clean-up by age: entries older than the limit disappear; of downloads a hidden record is kept if duplicates are checked. -/
def Expected (dupeCheck : Bool) (limit : Int) (e : Entry) : Option Entry :=
  match e.what with
  | .hidden _ => some e
  | .item i =>
    if limit ≤ e.time then some e
    else if dupeCheck = true ∧ i.isUrl = false then some (hide e.id e.time i) else none

theorem serviceWork_limit (dupeCheck : Bool) (now keep : Int) (h : List Entry) :
    serviceWork dupeCheck now keep h = some (h.filterMap (Expected dupeCheck (now - keepSeconds keep))) := by
  unfold serviceWork
  rw [reverse_loop]
  congr 2
  funext e
  unfold after serviceAct Expected
  cases e.what with
  | hidden d => rfl
  | item i =>
    dsimp only
    by_cases ht : e.time < now - keepSeconds keep
    · rw [if_pos ht, if_neg (show ¬(now - keepSeconds keep ≤ e.time) by omega)]
      cases dupeCheck <;> cases i.isUrl <;> rfl
    · rw [if_neg ht, if_pos (show now - keepSeconds keep ≤ e.time by omega)]

/-- The clean-up removes or hides exactly the entries older than KeepHistory days, everything else stays as and where it is. Missing: values of
the option above 24855, see `keep_history_overflow`. -/
theorem cleanup_by_age_partial (dupeCheck : Bool) (now keep : Int) (hk : 0 ≤ keep ∧ keep ≤ 24855) (h : List Entry) :
    serviceWork dupeCheck now keep h = some (h.filterMap (Expected dupeCheck (now - 86400 * keep))) := by
  rw [serviceWork_limit]
  have e : keepSeconds keep = 86400 * keep := by unfold keepSeconds; rw [Int.bmod_def]; omega
  rw [e]

/-- **C56, violation.** With a value of the option between 24856 and 49710 days the history is removed at once, however young it is: nothing
stays but hidden entries. -/
theorem keep_history_overflow (dupeCheck : Bool) (now keep : Int) (hk : 24856 ≤ keep ∧ keep ≤ 49710) (h : List Entry)
    (ht : ∀ e ∈ h, e.time ≤ now) :
    ∃ h', serviceWork dupeCheck now keep h = some h' ∧ ∀ e ∈ h', ∃ d, e.what = .hidden d := by
  refine ⟨_, serviceWork_limit dupeCheck now keep h, ?_⟩
  have hneg : keepSeconds keep < 0 := by
    unfold keepSeconds
    rw [Int.bmod_def, Int.emod_eq_of_lt (by omega) (by omega)]
    omega
  intro e he
  rw [List.mem_filterMap] at he
  obtain ⟨x, hx, hex⟩ := he
  have := ht x hx
  unfold Expected at hex
  cases hw : x.what with
  | hidden d =>
    rw [hw] at hex
    injection hex with hex
    exact ⟨d, hex ▸ hw⟩
  | item i =>
    rw [hw] at hex
    dsimp only at hex
    rw [if_neg (by omega)] at hex
    split at hex
    · injection hex with hex
      subst hex
      exact ⟨_, rfl⟩
    · exact nomatch hex

example : serviceWork false 1700000000 30000 [⟨1, 1699999999, .item exItem⟩] = some [] := by decide +kernel

example : serviceWork true (100 * 86400) 30
    [⟨1, 99 * 86400, .item exItem⟩, ⟨2, 70 * 86400 - 1, .item { exItem with id := 2, mark := .good }⟩, ⟨3, 5, .item { exItem with isUrl := true }⟩,
     ⟨4, 70 * 86400, .item exItem⟩]
    = some [⟨1, 99 * 86400, .item exItem⟩, ⟨2, 70 * 86400 - 1, .hidden ⟨"Show.S01E01", "", 0, .score, .good, 0, 0⟩⟩, ⟨4, 70 * 86400, .item exItem⟩] := by
  decide +kernel

/-- Hiding a download does not change what the search for duplicates knows of it: whether it succeeded, whether it is good, its title, score
and content. -/
theorem hidden_keeps_result (id : Nat) (time : Int) (i : Item) (hu : i.isUrl = false) (name key : String) :
    (Succeeded name key (hide id time i).what ↔ Succeeded name key (.item i)) ∧
    (MarkedGood name key (hide id time i).what ↔ MarkedGood name key (.item i)) ∧
    scoreOf (hide id time i).what = i.score ∧
    (∀ new : Item, CopyInHistory new [(hide id time i).what] ↔ CopyInHistory new [.item i]) := by
  have hs : (hiddenStatus i = .success ∨ hiddenStatus i = .good) ↔ Success i := by
    rw [← success_iff]
    unfold hiddenStatus Item.isSuccess
    cases i.mark <;> cases i.del <;> cases i.broken <;> decide
  have hg : hiddenStatus i = .good ↔ i.mark = .good := by
    unfold hiddenStatus Item.isSuccess
    cases i.mark <;> cases i.del <;> cases i.broken <;> decide
  refine ⟨?_, ?_, rfl, fun new => ?_⟩
  · unfold hide Succeeded
    dsimp only
    rw [hs, hu]
    simp only [true_and]
  · unfold hide MarkedGood
    dsimp only
    rw [hg, hu]
    simp only [true_and]
  · unfold hide CopyInHistory
    simp only [List.mem_singleton, exists_eq_left, hu, true_and]

/-- The entry after a duplicate, with the id `markId`, was marked as good: backups of the same title are hidden. -/
def afterGood (markId : Nat) (name key : String) (e : Entry) : Entry :=
  match e.what with
  | .hidden _ => e
  | .item i => if sameNameOrKey i.name i.key name key = true ∧ i.del = .dupe ∧ i.mode ≠ .force ∧ e.id ≠ markId then hide e.id e.time i else e

/-- Marking a download as good hides exactly the backups of its title. -/
theorem good_hides_backups (markId : Nat) (name key : String) (h : List Entry) :
    ∃ h', historyCleanup markId name key h = some h' ∧ h'.length = h.length ∧
      ∀ (pos : Nat) (e : Entry), h[pos]? = some e →
        h'[pos]? = some (afterGood markId name key e) := by
  have hmap : h.filterMap (after (cleanupAct markId name key)) = h.map (afterGood markId name key) := by
    rw [← List.filterMap_eq_map]
    congr 1
    funext e
    unfold after cleanupAct afterGood
    dsimp only [Function.comp]
    cases e.what with
    | hidden d => rfl
    | item i =>
      dsimp only
      by_cases hc : (i.mode != .force && i.del == .dupe && e.id != markId && sameNameOrKey i.name i.key name key) = true
      · rw [if_pos hc]
        simp only [Bool.and_eq_true, beq_iff_eq, bne_iff_ne] at hc
        rw [if_pos ⟨hc.2, hc.1.1.2, hc.1.1.1, hc.1.2⟩]
      · rw [if_neg hc]
        simp only [Bool.and_eq_true, beq_iff_eq, bne_iff_ne] at hc
        rw [if_neg]
        rintro ⟨h1, h2, h3, h4⟩
        exact hc ⟨⟨⟨h3, h2⟩, h4⟩, h1⟩
  unfold historyCleanup
  rw [reverse_loop, hmap]
  refine ⟨_, rfl, by simp, fun pos e he => ?_⟩
  rw [List.getElem?_map, he]
  rfl

/-- After a download was marked as good none of its duplicates is put back, whatever fails: not by a failure, not by a mark. -/
theorem good_ends_search (self : Option Nat) (name key : String) (queue : List Item) (hist : List Hist) (s : Hist)
    (hs : s ∈ hist) (hg : MarkedGood name key s) : chooseBackup self name key queue hist = none := by
  cases h : chooseBackup self name key queue hist with
  | none => rfl
  | some p => exact absurd hg (((chosen_backup_iff _ _ _ _ _ _).1 h).1 s hs)

example : chooseBackup (some 2) "Show.S01E01" "" [] (.item { exItem with id := 8, mark := .good } :: exHist) = none := by decide +kernel

/-- When the entry at `pos` is marked as bad the best backup of its title comes to the front of the queue and leaves the history; if there is none
nothing but the mark changes. The marked entry itself is never put back. -/
theorem bad_returns_best (pos : Nat) (queue : List Item) (h : List Entry) (e e' : Entry) (he : h[pos]? = some e) (hm : setMark .bad e = some e')
    (hforce : (titleOf e'.what).2.2 ≠ .force) :
    let name := (titleOf e'.what).1
    let key := (titleOf e'.what).2.1
    let h1 := h.set pos e'
    (∀ p i, (∀ s ∈ h1.map Entry.what, ¬MarkedGood name key s) → Best none name key queue (h1.map Entry.what) p (.item i) → i.source = true →
      p ≠ pos ∧ ∃ i', i'.id = i.id ∧ i'.score = i.score ∧ i'.del = .none ∧
        historyMark .bad pos queue h = some (i' :: queue, h1.eraseIdx p)) ∧
    ((∃ s ∈ h1.map Entry.what, MarkedGood name key s) ∨ (∀ p r, ¬Best none name key queue (h1.map Entry.what) p r) →
      historyMark .bad pos queue h = some (queue, h1)) := by
  intro name key h1
  have hstart : historyMark .bad pos queue h =
      some (putBack queue h1 (chooseBackup none name key queue (h1.map Entry.what))) := by
    unfold historyMark
    rw [he]
    dsimp only
    rw [hm]
    dsimp only
    rw [if_neg (by rw [beq_iff_eq]; exact hforce), if_neg (by decide), if_pos (by decide)]
  rw [hstart]
  unfold putBack
  refine ⟨fun p i hng hb hsrc => ?_, fun hno => ?_⟩
  · have hc := (chosen_backup_iff _ _ _ _ _ _).2 ⟨hng, _, hb⟩
    rw [hc]
    dsimp only
    have h0 := hb.1
    rw [List.getElem?_map, Option.map_eq_some_iff] at h0
    obtain ⟨x, hx, hxi⟩ := h0
    obtain ⟨xid, xt, xw⟩ := x
    dsimp only at hxi
    subst hxi
    refine ⟨fun hp => ?_, ?_⟩
    · subst hp
      have hlt : p < h.length := (List.getElem?_eq_some_iff.1 he).1
      have : h1[p]? = some e' := by
        show (h.set p e')[p]? = _
        rw [List.getElem?_set_self hlt]
      rw [this] at hx
      injection hx with hx
      have hbad := hb.2.1.2.2.2.1
      unfold setMark at hm
      split at hm
      · split at hm
        · cases hm
        · injection hm with hm
          rw [hx] at hm
          simp only [Entry.mk.injEq, Hist.item.injEq] at hm
          rw [← hm.2.2] at hbad
          exact hbad rfl
      · injection hm with hm
        rw [hx] at hm
        simp at hm
    · rw [hx]
      dsimp only
      rw [if_pos hsrc]
      exact ⟨{ i with del := .none, mark := if i.isUrl then i.mark else .none, hint := true }, rfl, rfl, rfl, rfl⟩
  · have hc : chooseBackup none name key queue (h1.map Entry.what) = none := by
      cases hcb : chooseBackup none name key queue (h1.map Entry.what) with
      | none => rfl
      | some p =>
        obtain ⟨hng, r, hb⟩ := (chosen_backup_iff _ _ _ _ _ _).1 hcb
        rcases hno with ⟨s, hs, hg⟩ | hno
        · exact absurd hg (hng s hs)
        · exact absurd hb (hno p r)
    rw [hc]

example : (historyMark .bad 0 [] [⟨1, 0, .item exItem⟩, ⟨2, 0, .item { exItem with id := 2, del := .dupe, score := -5 }⟩]).map
    (fun r => (r.1.map Item.id, r.2.map Entry.id)) = some ([2], [1]) := by decide +kernel

end Verif.HistoryWork
