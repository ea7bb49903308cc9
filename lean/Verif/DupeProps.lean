import Verif.Dupe
/-
Property C26: which duplicates are kept, put back and left out.
-/
namespace Verif.Dupe

/-! ## Specification -/

/-- Equal but for upper and lower case. -/
def EqNoCase (a b : String) : Prop := a.toList.map Char.toLower = b.toList.map Char.toLower

/-- Two titles are duplicates: by their dupe keys if both have one, by their names otherwise. -/
def SameTitle (name key name' key' : String) : Prop :=
  (key ≠ "" ∧ key' ≠ "" → EqNoCase key key') ∧ (¬(key ≠ "" ∧ key' ≠ "") → EqNoCase name name')

/-- The download succeeded: the user says so, or nothing failed and it was not deleted. -/
def Success (i : Item) : Prop :=
  i.mark = .good ∨ i.mark = .success ∨ (i.mark = .none ∧ i.del = .none ∧ i.broken = false)

def scoreOf : Hist → Int
  | .item i => i.score
  | .hidden d => d.score

/-- A duplicate in the history which succeeded. -/
def Succeeded (name key : String) : Hist → Prop
  | .item i => i.isUrl = false ∧ i.mode ≠ .force ∧ Success i ∧ SameTitle i.name i.key name key
  | .hidden d => d.mode ≠ .force ∧ (d.status = .success ∨ d.status = .good) ∧ SameTitle d.name d.key name key

/-- A duplicate in the history which was marked as good. -/
def MarkedGood (name key : String) : Hist → Prop
  | .item i => i.isUrl = false ∧ i.mode ≠ .force ∧ i.mark = .good ∧ SameTitle i.name i.key name key
  | .hidden d => d.mode ≠ .force ∧ d.status = .good ∧ SameTitle d.name d.key name key

/-- A backup: a duplicate in the history which was left out because of another one, is not known to be broken and not marked as bad. -/
def Backup (name key : String) : Hist → Prop
  | .item i => i.mode ≠ .force ∧ i.del = .dupe ∧ i.healthy = true ∧ i.mark ≠ .bad ∧ SameTitle i.name i.key name key
  | .hidden _ => False

/-- A duplicate in the queue, other than the entry `self`. -/
def Queued (self : Option Nat) (name key : String) (e : Item) : Prop :=
  self ≠ some e.id ∧ e.isUrl = false ∧ e.mode ≠ .force ∧ SameTitle e.name e.key name key

/-- `r`, at position `pos` of the history, is the backup to be put back: better than all duplicates which succeeded or are queued, the best of
the backups and the latest of the best ones (the history begins with the latest). -/
def Best (self : Option Nat) (name key : String) (queue : List Item) (hist : List Hist) (pos : Nat) (r : Hist) : Prop :=
  hist[pos]? = some r ∧ Backup name key r ∧
  (∀ s ∈ hist, Succeeded name key s → scoreOf s < scoreOf r) ∧
  (∀ e ∈ queue, Queued self name key e → e.score < scoreOf r) ∧
  (∀ pos' r', hist[pos']? = some r' → Backup name key r' → scoreOf r' ≤ scoreOf r ∧ (scoreOf r' = scoreOf r → pos ≤ pos'))

/-! ## Lemmas -/

theorem sameText_iff (a b : String) : sameText a b = true ↔ EqNoCase a b := by
  unfold sameText EqNoCase; rw [beq_iff_eq]

theorem same_iff (n k n' k' : String) : sameNameOrKey n k n' k' = true ↔ SameTitle n k n' k' := by
  unfold sameNameOrKey SameTitle
  simp only [Bool.or_eq_true, Bool.and_eq_true, Bool.not_eq_true', bne_iff_ne, sameText_iff, Bool.and_eq_false_iff, bne_eq_false_iff_eq]
  by_cases h1 : k = "" <;> by_cases h2 : k' = "" <;> simp [h1, h2]

theorem success_iff (i : Item) : i.isSuccess = true ↔ Success i := by
  unfold Item.isSuccess Success
  cases i.mark <;> cases i.del <;> cases i.broken <;> decide

def gt (x : Int) : Option Int → Prop
  | none => True
  | some s => s < x

theorem gt_iff (x : Int) (o : Option Int) : above x o = true ↔ gt x o := by
  cases o <;> simp [gt, above]

theorem historyScore_none (name key : String) (l : List Hist) : ∀ best,
    historyScore name key l best = none ↔ ∃ r ∈ l, MarkedGood name key r := by
  induction l with
  | nil => intro best; simp [historyScore]
  | cons r l ih =>
    intro best
    cases r with
    | item i =>
      unfold historyScore
      by_cases hc : (!i.isUrl && i.mode != .force && i.isSuccess && sameNameOrKey i.name i.key name key) = true
      · rw [if_pos hc]
        simp only [Bool.and_eq_true, Bool.not_eq_true', bne_iff_ne, same_iff] at hc
        by_cases hg : i.mark = .good
        · rw [if_pos (by rw [hg]; rfl)]
          exact ⟨fun _ => ⟨_, List.mem_cons_self, hc.1.1.1, hc.1.1.2, hg, hc.2⟩, fun _ => rfl⟩
        · rw [if_neg (by rw [beq_iff_eq]; exact hg), ih]
          constructor
          · rintro ⟨r, h, h'⟩; exact ⟨r, List.mem_cons_of_mem _ h, h'⟩
          · rintro ⟨r, h, h'⟩
            rcases List.mem_cons.1 h with rfl | h
            · exact absurd h'.2.2.1 hg
            · exact ⟨r, h, h'⟩
      · rw [if_neg hc, ih]
        constructor
        · rintro ⟨r, h, h'⟩; exact ⟨r, List.mem_cons_of_mem _ h, h'⟩
        · rintro ⟨r, h, h'⟩
          rcases List.mem_cons.1 h with rfl | h
          · refine absurd ?_ hc
            simp only [Bool.and_eq_true, Bool.not_eq_true', bne_iff_ne, same_iff, success_iff]
            exact ⟨⟨⟨h'.1, h'.2.1⟩, Or.inl h'.2.2.1⟩, h'.2.2.2⟩
          · exact ⟨r, h, h'⟩
    | hidden d =>
      unfold historyScore
      by_cases hc : (d.mode != .force && (d.status == .success || d.status == .good) && sameNameOrKey d.name d.key name key) = true
      · rw [if_pos hc]
        simp only [Bool.and_eq_true, Bool.or_eq_true, beq_iff_eq, bne_iff_ne, same_iff] at hc
        by_cases hg : d.status = .good
        · rw [if_pos (by rw [hg]; rfl)]
          exact ⟨fun _ => ⟨_, List.mem_cons_self, hc.1.1, hg, hc.2⟩, fun _ => rfl⟩
        · rw [if_neg (by rw [beq_iff_eq]; exact hg), ih]
          constructor
          · rintro ⟨r, h, h'⟩; exact ⟨r, List.mem_cons_of_mem _ h, h'⟩
          · rintro ⟨r, h, h'⟩
            rcases List.mem_cons.1 h with rfl | h
            · exact absurd h'.2.1 hg
            · exact ⟨r, h, h'⟩
      · rw [if_neg hc, ih]
        constructor
        · rintro ⟨r, h, h'⟩; exact ⟨r, List.mem_cons_of_mem _ h, h'⟩
        · rintro ⟨r, h, h'⟩
          rcases List.mem_cons.1 h with rfl | h
          · refine absurd ?_ hc
            simp only [Bool.and_eq_true, Bool.or_eq_true, beq_iff_eq, bne_iff_ne, same_iff]
            exact ⟨⟨h'.1, Or.inr h'.2.1⟩, h'.2.2⟩
          · exact ⟨r, h, h'⟩

theorem gt_max (x s : Int) (best : Option Int) :
    gt x (raise best s) ↔ gt x best ∧ s < x := by
  unfold raise above
  cases best with
  | none => simp [gt]
  | some b =>
    dsimp only
    split
    · rename_i h; simp only [gt, decide_eq_true_eq] at *; omega
    · rename_i h; simp only [gt, decide_eq_true_eq] at *; omega

theorem historyScore_some (name key : String) (l : List Hist) : ∀ best hs, historyScore name key l best = some hs →
    ∀ x, gt x hs ↔ gt x best ∧ ∀ r ∈ l, Succeeded name key r → scoreOf r < x := by
  induction l with
  | nil => intro best hs h x; cases h; simp
  | cons r l ih =>
    intro best hs h x
    cases r with
    | item i =>
      unfold historyScore at h
      by_cases hc : (!i.isUrl && i.mode != .force && i.isSuccess && sameNameOrKey i.name i.key name key) = true
      · rw [if_pos hc] at h
        simp only [Bool.and_eq_true, Bool.not_eq_true', bne_iff_ne, same_iff, success_iff] at hc
        by_cases hg : (i.mark == .good) = true
        · rw [if_pos hg] at h; cases h
        · rw [if_neg hg] at h
          rw [ih _ _ h x, gt_max]
          constructor
          · rintro ⟨⟨h1, h2⟩, h3⟩
            refine ⟨h1, fun r hr hs => ?_⟩
            rcases List.mem_cons.1 hr with rfl | hr
            · exact h2
            · exact h3 r hr hs
          · rintro ⟨h1, h2⟩
            exact ⟨⟨h1, h2 _ List.mem_cons_self ⟨hc.1.1.1, hc.1.1.2, hc.1.2, hc.2⟩⟩, fun r hr => h2 r (List.mem_cons_of_mem _ hr)⟩
      · rw [if_neg hc] at h
        rw [ih _ _ h x]
        simp only [Bool.and_eq_true, Bool.not_eq_true', bne_iff_ne, same_iff, success_iff] at hc
        constructor
        · rintro ⟨h1, h2⟩
          refine ⟨h1, fun r hr hs => ?_⟩
          rcases List.mem_cons.1 hr with rfl | hr
          · exact absurd ⟨⟨⟨hs.1, hs.2.1⟩, hs.2.2.1⟩, hs.2.2.2⟩ hc
          · exact h2 r hr hs
        · rintro ⟨h1, h2⟩; exact ⟨h1, fun r hr => h2 r (List.mem_cons_of_mem _ hr)⟩
    | hidden d =>
      unfold historyScore at h
      by_cases hc : (d.mode != .force && (d.status == .success || d.status == .good) && sameNameOrKey d.name d.key name key) = true
      · rw [if_pos hc] at h
        simp only [Bool.and_eq_true, Bool.or_eq_true, beq_iff_eq, bne_iff_ne, same_iff] at hc
        by_cases hg : (d.status == .good) = true
        · rw [if_pos hg] at h; cases h
        · rw [if_neg hg] at h
          rw [ih _ _ h x, gt_max]
          constructor
          · rintro ⟨⟨h1, h2⟩, h3⟩
            refine ⟨h1, fun r hr hs => ?_⟩
            rcases List.mem_cons.1 hr with rfl | hr
            · exact h2
            · exact h3 r hr hs
          · rintro ⟨h1, h2⟩
            exact ⟨⟨h1, h2 _ List.mem_cons_self ⟨hc.1.1, hc.1.2, hc.2⟩⟩, fun r hr => h2 r (List.mem_cons_of_mem _ hr)⟩
      · rw [if_neg hc] at h
        rw [ih _ _ h x]
        simp only [Bool.and_eq_true, Bool.or_eq_true, beq_iff_eq, bne_iff_ne, same_iff] at hc
        constructor
        · rintro ⟨h1, h2⟩
          refine ⟨h1, fun r hr hs => ?_⟩
          rcases List.mem_cons.1 hr with rfl | hr
          · exact absurd ⟨⟨hs.1, hs.2.1⟩, hs.2.2⟩ hc
          · exact h2 r hr hs
        · rintro ⟨h1, h2⟩; exact ⟨h1, fun r hr => h2 r (List.mem_cons_of_mem _ hr)⟩

theorem queueScore_gt (self : Option Nat) (name key : String) (l : List Item) : ∀ best x,
    gt x (queueScore self name key l best) ↔ gt x best ∧ ∀ e ∈ l, Queued self name key e → e.score < x := by
  induction l with
  | nil => intro best x; simp [queueScore]
  | cons e l ih =>
    intro best x
    unfold queueScore
    by_cases hq : Queued self name key e
    · have hq' := hq
      unfold Queued at hq'
      have hb : (some e.id != self && !e.isUrl && e.mode != .force && sameNameOrKey e.name e.key name key) = true := by
        simp only [Bool.and_eq_true, Bool.not_eq_true', bne_iff_ne, same_iff]
        exact ⟨⟨⟨fun h => hq'.1 h.symm, hq'.2.1⟩, hq'.2.2.1⟩, hq'.2.2.2⟩
      rw [hb, Bool.true_and]
      by_cases hg : above e.score best = true
      · rw [if_pos hg, ih]
        rw [gt_iff] at hg
        constructor
        · rintro ⟨h1, h2⟩
          refine ⟨?_, fun e' he' hs => ?_⟩
          · cases best with
            | none => trivial
            | some b => simp only [gt] at *; omega
          · rcases List.mem_cons.1 he' with rfl | he'
            · exact h1
            · exact h2 e' he' hs
        · rintro ⟨_, h2⟩; exact ⟨h2 e List.mem_cons_self hq, fun e' he' => h2 e' (List.mem_cons_of_mem _ he')⟩
      · rw [if_neg hg, ih]
        constructor
        · rintro ⟨h1, h2⟩
          refine ⟨h1, fun e' he' hs => ?_⟩
          rcases List.mem_cons.1 he' with rfl | he'
          · cases best with
            | none => exact absurd rfl hg
            | some b => simp only [gt, above, decide_eq_true_eq] at *; omega
          · exact h2 e' he' hs
        · rintro ⟨h1, h2⟩; exact ⟨h1, fun e' he' => h2 e' (List.mem_cons_of_mem _ he')⟩
    · rw [if_neg, ih]
      · constructor
        · rintro ⟨h1, h2⟩
          refine ⟨h1, fun e' he' hs => ?_⟩
          rcases List.mem_cons.1 he' with rfl | he'
          · exact absurd hs hq
          · exact h2 e' he' hs
        · rintro ⟨h1, h2⟩; exact ⟨h1, fun e' he' => h2 e' (List.mem_cons_of_mem _ he')⟩
      · intro h
        simp only [Bool.and_eq_true, Bool.not_eq_true', bne_iff_ne, same_iff] at h
        exact hq ⟨fun h' => h.1.1.1.1 h'.symm, h.1.1.1.2, h.1.1.2, h.1.2⟩

/-- A backup above both scores. -/
def Elig (name key : String) (hs qs : Option Int) (r : Hist) : Prop := Backup name key r ∧ gt (scoreOf r) hs ∧ gt (scoreOf r) qs

theorem bestBackup_spec (name key : String) (hs qs : Option Int) (l : List Hist) : ∀ pos best,
    (bestBackup name key hs qs l pos best = none → best = none ∧ ∀ r ∈ l, ¬Elig name key hs qs r) ∧
    ∀ p, bestBackup name key hs qs l pos best = some p →
      (∃ s, best = some (p, s) ∧ ∀ r ∈ l, Elig name key hs qs r → scoreOf r ≤ s) ∨
      (∃ j r, p = pos + j ∧ l[j]? = some r ∧ Elig name key hs qs r ∧ (∀ b, best = some b → b.2 < scoreOf r) ∧
        ∀ j' r', l[j']? = some r' → Elig name key hs qs r' → scoreOf r' ≤ scoreOf r ∧ (scoreOf r' = scoreOf r → j ≤ j')) := by
  induction l with
  | nil =>
    intro pos best
    refine ⟨fun h => ?_, fun p h => ?_⟩
    · cases best with
      | none => exact ⟨rfl, by simp⟩
      | some b => simp [bestBackup] at h
    · cases best with
      | none => simp [bestBackup] at h
      | some b =>
        simp only [bestBackup, Option.map_some, Option.some.injEq] at h
        exact .inl ⟨b.2, by rw [← h], by simp⟩
  | cons r l ih =>
    intro pos best
    have skip : (¬Elig name key hs qs r ∨ ∃ b, best = some b ∧ scoreOf r ≤ b.2) →
        bestBackup name key hs qs (r :: l) pos best = bestBackup name key hs qs l (pos + 1) best →
        (bestBackup name key hs qs (r :: l) pos best = none → best = none ∧ ∀ r' ∈ r :: l, ¬Elig name key hs qs r') ∧
        ∀ p, bestBackup name key hs qs (r :: l) pos best = some p →
        (∃ s, best = some (p, s) ∧ ∀ r' ∈ r :: l, Elig name key hs qs r' → scoreOf r' ≤ s) ∨
        (∃ j r', p = pos + j ∧ (r :: l)[j]? = some r' ∧ Elig name key hs qs r' ∧ (∀ b, best = some b → b.2 < scoreOf r') ∧
          ∀ j' r'', (r :: l)[j']? = some r'' → Elig name key hs qs r'' → scoreOf r'' ≤ scoreOf r' ∧ (scoreOf r'' = scoreOf r' → j ≤ j')) := by
      intro hr heq
      obtain ⟨ih1, ih2⟩ := ih (pos + 1) best
      rw [heq]
      refine ⟨fun h => ?_, fun p h => ?_⟩
      · obtain ⟨h1, h2⟩ := ih1 h
        refine ⟨h1, fun r' hr' he => ?_⟩
        rcases List.mem_cons.1 hr' with rfl | hr'
        · rcases hr with hr | ⟨b, hb, _⟩
          · exact hr he
          · rw [h1] at hb; cases hb
        · exact h2 r' hr' he
      · rcases ih2 p h with ⟨s, hs, hle⟩ | ⟨j, r', hp, hj, he, hb, hmax⟩
        · refine .inl ⟨s, hs, fun r' hr' he => ?_⟩
          rcases List.mem_cons.1 hr' with rfl | hr'
          · rcases hr with hr | ⟨b, hb, hle'⟩
            · exact absurd he hr
            · rw [hs] at hb; cases hb; exact hle'
          · exact hle r' hr' he
        · refine .inr ⟨j + 1, r', by omega, by simpa using hj, he, hb, fun j' r'' hj' he' => ?_⟩
          cases j' with
          | zero =>
            simp only [List.getElem?_cons_zero, Option.some.injEq] at hj'
            subst hj'
            rcases hr with hr | ⟨b, hb', hle'⟩
            · exact absurd he' hr
            · have := hb b hb'; omega
          | succ j' =>
            simp only [List.getElem?_cons_succ] at hj'
            have := hmax j' r'' hj' he'
            exact ⟨this.1, fun h => by have := this.2 h; omega⟩
    cases r with
    | hidden d => exact skip (.inl fun h => h.1) rfl
    | item i =>
      by_cases hc : (i.mode != .force && i.del == .dupe && i.healthy && i.mark != .bad &&
        above i.score hs &&
        above i.score qs &&
        above i.score (best.map Prod.snd) &&
        sameNameOrKey i.name i.key name key) = true
      · have heq : bestBackup name key hs qs (.item i :: l) pos best = bestBackup name key hs qs l (pos + 1) (some (pos, i.score)) := by
          rw [bestBackup, if_pos hc]
        simp only [Bool.and_eq_true, beq_iff_eq, bne_iff_ne, same_iff, gt_iff] at hc
        obtain ⟨⟨⟨⟨⟨⟨⟨c1, c2⟩, c3⟩, c4⟩, c5⟩, c6⟩, c7⟩, c8⟩ := hc
        have hel : Elig name key hs qs (.item i) := ⟨⟨c1, c2, c3, c4, c8⟩, c5, c6⟩
        have hbest : ∀ b, best = some b → b.2 < i.score := by
            intro b hb; subst hb; exact c7
        obtain ⟨ih1, ih2⟩ := ih (pos + 1) (some (pos, i.score))
        rw [heq]
        refine ⟨fun h => ?_, fun p h => ?_⟩
        · have := (ih1 h).1; cases this
        · right
          rcases ih2 p h with ⟨s, hs', hle⟩ | ⟨j, r', hp, hj, he, hb, hmax⟩
          · cases hs'
            refine ⟨0, .item i, by omega, rfl, hel, hbest, fun j' r'' hj' he' => ⟨?_, fun _ => by omega⟩⟩
            cases j' with
            | zero =>
              simp only [List.getElem?_cons_zero, Option.some.injEq] at hj'
              rw [← hj']; exact Int.le_refl _
            | succ j' =>
              simp only [List.getElem?_cons_succ] at hj'
              exact hle _ (List.mem_of_getElem? hj') he'
          · have hlt := hb _ rfl
            dsimp only at hlt
            refine ⟨j + 1, r', by omega, by simpa using hj, he, fun b hb' => ?_, fun j' r'' hj' he' => ?_⟩
            · have := hbest b hb'; omega
            · cases j' with
              | zero =>
                simp only [List.getElem?_cons_zero, Option.some.injEq] at hj'
                subst hj'
                simp only [scoreOf] at *
                exact ⟨by omega, fun h => by omega⟩
              | succ j' =>
                simp only [List.getElem?_cons_succ] at hj'
                have := hmax j' r'' hj' he'
                exact ⟨this.1, fun h => by have := this.2 h; omega⟩
      · refine skip ?_ (by rw [bestBackup, if_neg hc])
        simp only [Bool.and_eq_true, beq_iff_eq, bne_iff_ne, same_iff, gt_iff] at hc
        by_cases he : Elig name key hs qs (.item i)
        · right
          obtain ⟨⟨c1, c2, c3, c4, c8⟩, c5, c6⟩ := he
          cases best with
          | none => exact absurd ⟨⟨⟨⟨⟨⟨⟨c1, c2⟩, c3⟩, c4⟩, c5⟩, c6⟩, trivial⟩, c8⟩ hc
          | some b =>
            refine ⟨b, rfl, ?_⟩
            by_cases hle : i.score ≤ b.2
            · exact hle
            · exact absurd ⟨⟨⟨⟨⟨⟨⟨c1, c2⟩, c3⟩, c4⟩, c5⟩, c6⟩, Int.not_le.1 hle⟩, c8⟩ hc
        · exact .inl he

/-! ## Which backup is put back -/

/-- Exactly the backup of the specification is chosen, and none if a duplicate is marked as good. -/
theorem chosen_backup_iff (self : Option Nat) (name key : String) (queue : List Item) (hist : List Hist) (pos : Nat) :
    chooseBackup self name key queue hist = some pos ↔
      (∀ s ∈ hist, ¬MarkedGood name key s) ∧ ∃ r, Best self name key queue hist pos r := by
  unfold chooseBackup
  cases hh : historyScore name key hist none with
  | none =>
    obtain ⟨r, hr, hg⟩ := (historyScore_none name key hist none).1 hh
    exact ⟨fun h => (nomatch h), fun h => absurd hg (h.1 r hr)⟩
  | some hs =>
    have hng : ∀ s ∈ hist, ¬MarkedGood name key s := fun s hs' hg => by
      rw [(historyScore_none name key hist none).2 ⟨s, hs', hg⟩] at hh; cases hh
    have hel : ∀ r, Elig name key hs (queueScore self name key queue none) r ↔ Backup name key r ∧
        (∀ s ∈ hist, Succeeded name key s → scoreOf s < scoreOf r) ∧ (∀ e ∈ queue, Queued self name key e → e.score < scoreOf r) := by
      intro r
      unfold Elig
      rw [historyScore_some name key hist none hs hh, queueScore_gt]
      simp only [gt, true_and]
    have hbest : ∀ p r, Best self name key queue hist p r ↔ hist[p]? = some r ∧
        Elig name key hs (queueScore self name key queue none) r ∧
        ∀ j' r', hist[j']? = some r' → Elig name key hs (queueScore self name key queue none) r' →
          scoreOf r' ≤ scoreOf r ∧ (scoreOf r' = scoreOf r → p ≤ j') := by
      intro p r
      constructor
      · rintro ⟨h1, h2, h3, h4, h5⟩
        exact ⟨h1, (hel r).2 ⟨h2, h3, h4⟩, fun j' r' hj' he => h5 j' r' hj' ((hel r').1 he).1⟩
      · rintro ⟨h1, h2, h3⟩
        obtain ⟨h4, h5, h6⟩ := (hel r).1 h2
        refine ⟨h1, h4, h5, h6, fun j' r' hj' hb => ?_⟩
        by_cases hlt : scoreOf r' < scoreOf r
        · exact ⟨by omega, fun h => by omega⟩
        · refine h3 j' r' hj' ((hel r').2 ⟨hb, fun s hs' hsu => ?_, fun e he hq => ?_⟩)
          · have := h5 s hs' hsu; omega
          · have := h6 e he hq; omega
    obtain ⟨s1, s2⟩ := bestBackup_spec name key hs (queueScore self name key queue none) hist 0 none
    constructor
    · intro h
      refine ⟨hng, ?_⟩
      rcases s2 pos h with ⟨s, hs', _⟩ | ⟨j, r, hp, hj, he, _, hmax⟩
      · cases hs'
      · have : pos = j := by omega
        subst this
        exact ⟨r, (hbest _ _).2 ⟨hj, he, hmax⟩⟩
    · rintro ⟨_, r, hb⟩
      obtain ⟨b1, b2, b3⟩ := (hbest _ _).1 hb
      cases hres : bestBackup name key hs (queueScore self name key queue none) hist 0 none with
      | none => exact absurd b2 ((s1 hres).2 r (List.mem_of_getElem? b1))
      | some p =>
        rcases s2 p hres with ⟨s, hs', _⟩ | ⟨j, r', hp, hj, he, _, hmax⟩
        · cases hs'
        · have h1 := hmax pos r b1 b2
          have h2 := b3 j r' hj he
          have heq : scoreOf r = scoreOf r' := by omega
          have := h1.2 heq
          have := h2.2 heq.symm
          have : p = pos := by omega
          dsimp only
          rw [hres, this]

def exItem : Item :=
  { id := 1, isUrl := false, name := "Show.S01E01", key := "", score := 0, mode := .score, del := .none, mark := .none, full := 0, filtered := 0,
    broken := false, healthy := true, post := false, hint := false, feed := false, source := true }

/-- A history with three backups of scores 10, 20 and 20, a failed one and a hidden one which succeeded with score 5. -/
def exHist : List Hist :=
  [.item { exItem with id := 2, score := 30, del := .health, broken := true },
   .item { exItem with id := 3, score := 10, del := .dupe },
   .item { exItem with id := 4, name := "show.s01e01", score := 20, del := .dupe },
   .item { exItem with id := 5, score := 20, del := .dupe },
   .hidden { name := "Show.S01E01", key := "", score := 5, mode := .score, status := .success, full := 0, filtered := 0 }]

example : chooseBackup (some 2) "Show.S01E01" "" [] exHist = some 2 := by decide +kernel

example : ∃ r, Best (some 2) "Show.S01E01" "" [] exHist 2 r :=
  ((chosen_backup_iff (some 2) "Show.S01E01" "" [] exHist 2).1 (by decide +kernel)).2

/-- With a duplicate of the same score in the queue none is chosen. -/
example : chooseBackup (some 2) "Show.S01E01" "" [{ exItem with id := 7, score := 20 }] exHist = none := by decide +kernel

/-- The history which the choice sees when a download ends: with this download in front. -/
def ended (hist : List Hist) (done : Item) : List Hist := .item { done with hint := false } :: hist

/-- When a download fails, and was not deleted by the user, the best backup comes to the front of the queue and leaves the history;
everything else stays as it is. -/
theorem failed_download_replaced (wasAuto : Bool) (queue : List Item) (hist : List Hist) (done : Item) (pos : Nat) (i : Item)
    (hmode : done.mode = .score) (hdel : done.del = .none ∨ done.del = .health ∨ done.del = .bad ∨ done.del = .scan)
    (hfail : ¬Success done)
    (hng : ∀ s ∈ ended hist done, ¬MarkedGood done.name done.key s)
    (hbest : Best (some done.id) done.name done.key (queue.filter (·.id != done.id)) (ended hist done) pos (.item i)) (hsrc : i.source = true) :
    ∃ i', i'.id = i.id ∧ i'.name = i.name ∧ i'.score = i.score ∧ i'.del = .none ∧
      nzbCompleted wasAuto queue hist done = (i' :: queue.filter (·.id != done.id), (ended hist done).eraseIdx pos) := by
  have hsucc : ({ done with hint := false } : Item).isSuccess = false := by
    cases h : ({ done with hint := false } : Item).isSuccess with
    | false => rfl
    | true => exact absurd ((success_iff _).1 h) hfail
  have hchoose := (chosen_backup_iff _ _ _ _ _ _).2 ⟨hng, _, hbest⟩
  unfold nzbCompleted
  dsimp only
  rw [if_pos]
  · unfold returnBest
    rw [show (Hist.item { done with hint := false } :: hist) = ended hist done from rfl, hchoose]
    dsimp only
    rw [hbest.1]
    dsimp only
    rw [if_pos hsrc]
    exact ⟨{ i with del := .none, mark := if i.isUrl then i.mark else .none, hint := true }, rfl, rfl, rfl, rfl, rfl⟩
  · rw [hsucc, hmode]
    rcases hdel with h | h | h | h <;> rw [h] <;> cases wasAuto <;> rfl

example : nzbCompleted false [{ exItem with id := 9, name := "other" }, { exItem with id := 2, score := 30 }] exHist.tail
      { exItem with id := 2, score := 30, del := .health, broken := true }
    = ([{ exItem with id := 4, name := "show.s01e01", score := 20, hint := true }, { exItem with id := 9, name := "other" }],
       exHist.eraseIdx 2) := by decide +kernel

/-- Nothing is put back when the download succeeded, the user deleted it, it was skipped as a copy, or duplicates are not ranked by score. -/
theorem nothing_put_back (queue : List Item) (hist : List Hist) (done : Item)
    (h : Success done ∨ done.mode ≠ .score ∨ done.del = .manual ∨ done.del = .dupe ∨ done.del = .good ∨ done.del = .copy) :
    nzbCompleted false queue hist done = (queue.filter (·.id != done.id), ended hist done) := by
  unfold nzbCompleted
  dsimp only
  rw [if_neg]
  · rfl
  · simp only [Bool.and_eq_true, Bool.or_eq_true, beq_iff_eq, bne_iff_ne, Bool.not_eq_true']
    rintro ⟨⟨⟨h1, h2⟩, h3⟩, h4⟩
    rcases h with h | h | h | h | h | h
    · have := (success_iff { done with hint := false }).2 h
      rw [this] at h4; cases h4
    · exact h h3
    all_goals (rw [h] at h2; simp at h2)

/-- A download which succeeded is never replaced by one with the same or a lower score. -/
theorem success_not_replaced (self : Option Nat) (name key : String) (queue : List Item) (hist : List Hist) (pos : Nat) (i : Item) (s : Hist)
    (h : chooseBackup self name key queue hist = some pos) (hi : hist[pos]? = some (.item i))
    (hs : s ∈ hist) (hsucc : Succeeded name key s) : scoreOf s < i.score := by
  obtain ⟨_, r, hb⟩ := (chosen_backup_iff _ _ _ _ _ _).1 h
  have he := hb.1
  rw [hi] at he
  cases he
  exact hb.2.2.1 s hs hsucc

/-- Nothing is tried instead when the nzb-file of the best backup is missing: other backups stay in the history although the download failed.
(The code prints an error message.) -/
theorem missing_source_blocks : ∃ (hist : List Hist) (done : Item),
    (∃ i, Hist.item i ∈ hist ∧ Backup done.name done.key (.item i) ∧ i.source = true) ∧
    ¬Success done ∧ done.mode = .score ∧ done.del = .health ∧
    (nzbCompleted false [] hist done).1 = [] := by
  refine ⟨[.item { exItem with id := 3, score := 10, del := .dupe, source := false },
      .item { exItem with id := 4, score := 5, del := .dupe }], { exItem with id := 2, del := .health, broken := true },
    ⟨{ exItem with id := 4, score := 5, del := .dupe }, by simp, ⟨by decide, rfl, rfl, by decide, (same_iff _ _ _ _).1 (by decide +kernel)⟩, rfl⟩, ?_, rfl, rfl, by decide +kernel⟩
  rintro (h | h | ⟨_, h, _⟩) <;> simp [exItem] at h

/-! ## New downloads -/

/-- The result of the loop over the queue, without positions: `none` if the new entry becomes a backup at this point. -/
def scanSpec (gone : Item → Bool) (new : Item) : List Item → List Item × Bool
  | [] => ([], false)
  | e :: l =>
    if competes new e then
      if new.score ≤ e.score then (e :: l, true)
      else if !e.post then
        if gone e then scanSpec gone new l else ({ e with del := .dupe } :: (scanSpec gone new l).1, (scanSpec gone new l).2)
      else (e :: (scanSpec gone new l).1, (scanSpec gone new l).2)
    else (e :: (scanSpec gone new l).1, (scanSpec gone new l).2)

theorem scanQueue_spec (gone : Item → Bool) (new : Item) (l : List Item) : ∀ pre fuel, l.length ≤ fuel →
    scanQueue gone new fuel (pre ++ l) pre.length pre.length = some (pre ++ (scanSpec gone new l).1, (scanSpec gone new l).2) := by
  induction l with
  | nil =>
    intro pre fuel _
    cases fuel <;> simp [scanQueue, scanSpec]
  | cons e l ih =>
    intro pre fuel hf
    cases fuel with
    | zero => simp at hf
    | succ fuel =>
      have hf' : l.length ≤ fuel := by simpa using hf
      have happ : pre ++ e :: l = (pre ++ [e]) ++ l := by simp
      have hnext : scanQueue gone new fuel (pre ++ e :: l) (pre.length + 1) ((pre.length : Int) + 1) =
          some ((pre ++ [e]) ++ (scanSpec gone new l).1, (scanSpec gone new l).2) := by
        have := ih (pre ++ [e]) fuel hf'
        rw [happ]
        simpa using this
      unfold scanQueue scanSpec
      rw [if_neg (by simp), List.getElem?_append_right (Nat.le_refl _), Nat.sub_self, List.getElem?_cons_zero]
      dsimp only
      by_cases hc : competes new e = true
      · rw [if_pos hc, if_pos hc]
        by_cases hs : new.score ≤ e.score
        · rw [if_pos hs, if_pos hs]
        · rw [if_neg hs, if_neg hs]
          cases hp : e.post with
          | true =>
            simp only [Bool.not_true, Bool.false_eq_true, if_false]
            rw [hnext]; simp
          | false =>
            simp only [Bool.not_false, if_true]
            cases hg : gone e with
            | true =>
              simp only [if_true]
              rw [List.eraseIdx_append_of_length_le (Nat.le_refl _), Nat.sub_self, List.eraseIdx_cons_zero]
              rw [if_neg (show ¬((pre ++ e :: l).length = (pre ++ l).length) by simp), if_neg (show ¬((pre.length : Int) + 0 < 0) by omega)]
              have := ih pre fuel hf'
              simpa using this
            | false =>
              simp only [Bool.false_eq_true, if_false]
              rw [List.set_append_right _ _ (Nat.le_refl _), Nat.sub_self, List.set_cons_zero,
                if_pos (show (pre ++ e :: l).length = (pre ++ { e with del := .dupe, post := false } :: l).length by simp),
                if_neg (show ¬((pre.length : Int) + 1 < 0) by omega)]
              have := ih (pre ++ [{ e with del := .dupe, post := false }]) fuel hf'
              have h2 : ((pre.length : Int) + 1).toNat = pre.length + 1 := by omega
              have h3 : ((pre.length : Int) + 1 - 1 + 1) = (pre.length : Int) + 1 := by omega
              rw [h2, h3]
              simpa using this
      · rw [if_neg hc, if_neg hc, hnext]; simp

/-- The loop never leaves the queue and handles every entry once, whichever entries are removed at once. -/
theorem scanQueue_eq (gone : Item → Bool) (new : Item) (q : List Item) :
    scanQueue gone new q.length q 0 0 = some (scanSpec gone new q) := scanQueue_spec gone new q [] q.length (Nat.le_refl _)

/-- An active duplicate in the queue: not deleted, not forced; of urls only if the new entry is a url too. -/
def Active (new e : Item) : Prop :=
  e.id ≠ new.id ∧ e.del = .none ∧ (e.isUrl = true → new.isUrl = true) ∧ e.mode ≠ .force ∧ SameTitle e.name e.key new.name new.key

theorem competes_iff (new e : Item) : competes new e = true ↔ Active new e := by
  unfold competes Active
  simp only [Bool.and_eq_true, Bool.or_eq_true, Bool.not_eq_true', beq_iff_eq, bne_iff_ne, same_iff]
  cases e.isUrl <;> cases new.isUrl <;> simp [and_assoc]

/-- What may happen to an entry of the queue when a new one is found: it is a duplicate with a lower score, not in post-processing, and is moved
to the history as a backup (at once or as soon as its articles are done). -/
def Displaced (new e : Item) : Prop := Active new e ∧ e.score < new.score ∧ e.post = false

/-- `out` is `q` with displaced entries removed or marked and all others unchanged, in the same order. -/
inductive QueueAfter (new : Item) : List Item → List Item → Prop
  | nil : QueueAfter new [] []
  | keep (e) {l l'} : QueueAfter new l l' → QueueAfter new (e :: l) (e :: l')
  | moved (e) {l l'} : Displaced new e → QueueAfter new l l' → QueueAfter new (e :: l) l'
  | marked (e) {l l'} : Displaced new e → QueueAfter new l l' → QueueAfter new (e :: l) ({ e with del := .dupe } :: l')

theorem QueueAfter.refl (new : Item) : ∀ l, QueueAfter new l l
  | [] => .nil
  | e :: l => .keep e (QueueAfter.refl new l)

theorem scanSpec_after (gone : Item → Bool) (new : Item) (q : List Item) : QueueAfter new q (scanSpec gone new q).1 := by
  induction q with
  | nil => exact .nil
  | cons e l ih =>
    unfold scanSpec
    by_cases hc : competes new e = true
    · rw [if_pos hc]
      by_cases hs : new.score ≤ e.score
      · rw [if_pos hs]; exact QueueAfter.refl _ _
      · rw [if_neg hs]
        cases hp : e.post with
        | true => exact .keep e ih
        | false =>
          have hd : Displaced new e := ⟨(competes_iff new e).1 hc, by omega, hp⟩
          rw [← hp, show (!e.post) = true by rw [hp]; rfl, if_pos rfl]
          cases gone e with
          | true => exact .moved e hd ih
          | false => exact .marked e hd ih
    · rw [if_neg hc]; exact .keep e ih

theorem scanSpec_true (gone : Item → Bool) (new : Item) (q : List Item) :
    (scanSpec gone new q).2 = true ↔ ∃ e ∈ q, Active new e ∧ new.score ≤ e.score := by
  induction q with
  | nil => simp [scanSpec]
  | cons e l ih =>
    unfold scanSpec
    have hcons : ¬(Active new e ∧ new.score ≤ e.score) →
        ((∃ e' ∈ e :: l, Active new e' ∧ new.score ≤ e'.score) ↔ ∃ e' ∈ l, Active new e' ∧ new.score ≤ e'.score) := by
      intro h
      constructor
      · rintro ⟨e', he', h'⟩
        rcases List.mem_cons.1 he' with rfl | he'
        · exact absurd h' h
        · exact ⟨e', he', h'⟩
      · rintro ⟨e', he', h'⟩; exact ⟨e', List.mem_cons_of_mem _ he', h'⟩
    by_cases hc : competes new e = true
    · rw [if_pos hc]
      by_cases hs : new.score ≤ e.score
      · rw [if_pos hs]
        exact ⟨fun _ => ⟨e, List.mem_cons_self, (competes_iff new e).1 hc, hs⟩, fun _ => rfl⟩
      · rw [if_neg hs]
        rw [hcons (fun h => hs h.2)]
        split
        · split <;> exact ih
        · exact ih
    · rw [if_neg hc, hcons (fun h => hc ((competes_iff new e).2 h.1))]
      exact ih

theorem scanSpec_false (gone : Item → Bool) (new : Item) (q : List Item) (h : (scanSpec gone new q).2 = false) :
    ∀ e ∈ (scanSpec gone new q).1, Active new e → e.score < new.score ∧ e.post = true := by
  induction q with
  | nil => simp [scanSpec]
  | cons e l ih =>
    unfold scanSpec at h ⊢
    by_cases hc : competes new e = true
    · rw [if_pos hc] at h ⊢
      by_cases hs : new.score ≤ e.score
      · rw [if_pos hs] at h; cases h
      · rw [if_neg hs] at h ⊢
        cases hp : e.post with
        | true =>
          rw [hp] at h
          intro e' he'
          rcases List.mem_cons.1 he' with rfl | he'
          · exact fun _ => ⟨by omega, hp⟩
          · exact ih h e' he'
        | false =>
          rw [hp] at h
          simp only [Bool.not_false, if_true] at h ⊢
          cases hg : gone e with
          | true => rw [hg] at h; exact ih h
          | false =>
            rw [hg] at h
            intro e' he'
            rcases List.mem_cons.1 he' with rfl | he'
            · exact fun ha => by have := ha.2.1; cases this
            · exact ih h e' he'
    · rw [if_neg hc] at h ⊢
      intro e' he'
      rcases List.mem_cons.1 he' with rfl | he'
      · exact fun ha => absurd ((competes_iff new _).2 ha) hc
      · exact ih h e' he'

/-- The same content by one of the hash values. -/
def SameHash (new : Item) (full filtered : Nat) : Prop := (0 < new.full ∧ new.full = full) ∨ (0 < new.filtered ∧ new.filtered = filtered)

theorem sameContent_iff (new : Item) (a b : Nat) : sameContent new a b = true ↔ SameHash new a b := by
  unfold sameContent SameHash
  simp only [Bool.or_eq_true, Bool.and_eq_true, decide_eq_true_eq, beq_iff_eq, Nat.lt_iff_add_one_le, gt_iff_lt]

/-- The same content is in the history. -/
def CopyInHistory (new : Item) (hist : List Hist) : Prop :=
  ∃ r ∈ hist, match r with
    | .item i => i.isUrl = false ∧ SameHash new i.full i.filtered
    | .hidden d => SameHash new d.full d.filtered

/-- A duplicate in the history succeeded with the same or a higher score. -/
def BetterInHistory (new : Item) (hist : List Hist) : Prop :=
  ∃ r ∈ hist, match r with
    | .item i => i.mode ≠ .force ∧ Success i ∧ SameTitle i.name i.key new.name new.key ∧ new.score ≤ i.score
    | .hidden d => d.mode ≠ .force ∧ (d.status = .success ∨ d.status = .good) ∧ SameTitle d.name d.key new.name new.key ∧ new.score ≤ d.score

theorem histScan_skip (new : Item) (hist : List Hist) :
    (histScan new hist).1 = true ↔ ∃ r ∈ hist, MarkedGood new.name new.key r ∨
      (match r with
       | .item i => i.isUrl = false ∧ SameHash new i.full i.filtered
       | .hidden d => SameHash new d.full d.filtered ∨
          (d.mode ≠ .force ∧ new.mode = .score ∧ d.status = .success ∧ new.score ≤ d.score ∧ SameTitle d.name d.key new.name new.key)) := by
  induction hist with
  | nil => simp [histScan]
  | cons r l ih =>
    cases r with
    | item i =>
      unfold histScan
      by_cases h1 : (!i.isUrl && sameContent new i.full i.filtered) = true
      · rw [if_pos h1]
        simp only [Bool.and_eq_true, Bool.not_eq_true', sameContent_iff] at h1
        exact ⟨fun _ => ⟨_, List.mem_cons_self, .inr h1⟩, fun _ => rfl⟩
      · rw [if_neg h1]
        simp only [Bool.and_eq_true, Bool.not_eq_true', sameContent_iff] at h1
        by_cases h2 : (!i.isUrl && i.mode != .force && i.mark == .good && sameNameOrKey i.name i.key new.name new.key) = true
        · rw [if_pos h2]
          simp only [Bool.and_eq_true, Bool.not_eq_true', beq_iff_eq, bne_iff_ne, same_iff] at h2
          exact ⟨fun _ => ⟨_, List.mem_cons_self, .inl ⟨h2.1.1.1, h2.1.1.2, h2.1.2, h2.2⟩⟩, fun _ => rfl⟩
        · rw [if_neg h2]
          simp only [Bool.and_eq_true, Bool.not_eq_true', beq_iff_eq, bne_iff_ne, same_iff] at h2
          refine ih.trans ⟨fun ⟨r, hr, h⟩ => ⟨r, List.mem_cons_of_mem _ hr, h⟩, fun ⟨r, hr, h⟩ => ?_⟩
          rcases List.mem_cons.1 hr with rfl | hr
          · rcases h with h | h
            · exact absurd ⟨⟨⟨h.1, h.2.1⟩, h.2.2.1⟩, h.2.2.2⟩ h2
            · exact absurd h h1
          · exact ⟨r, hr, h⟩
    | hidden d =>
      unfold histScan
      by_cases h1 : sameContent new d.full d.filtered = true
      · rw [if_pos h1]
        rw [sameContent_iff] at h1
        exact ⟨fun _ => ⟨_, List.mem_cons_self, .inr (.inl h1)⟩, fun _ => rfl⟩
      · rw [if_neg h1]
        rw [sameContent_iff] at h1
        by_cases h2 : (d.mode != .force &&
            (d.status == .good || (new.mode == .score && d.status == .success && decide (new.score ≤ d.score))) &&
            sameNameOrKey d.name d.key new.name new.key) = true
        · rw [if_pos h2]
          simp only [Bool.and_eq_true, Bool.or_eq_true, decide_eq_true_eq, beq_iff_eq, bne_iff_ne, same_iff] at h2
          refine ⟨fun _ => ⟨_, List.mem_cons_self, ?_⟩, fun _ => rfl⟩
          rcases h2.1.2 with h | h
          · exact .inl ⟨h2.1.1, h, h2.2⟩
          · exact .inr (.inr ⟨h2.1.1, h.1.1, h.1.2, h.2, h2.2⟩)
        · rw [if_neg h2]
          simp only [Bool.and_eq_true, Bool.or_eq_true, decide_eq_true_eq, beq_iff_eq, bne_iff_ne, same_iff] at h2
          refine ih.trans ⟨fun ⟨r, hr, h⟩ => ⟨r, List.mem_cons_of_mem _ hr, h⟩, fun ⟨r, hr, h⟩ => ?_⟩
          rcases List.mem_cons.1 hr with rfl | hr
          · rcases h with h | h | h
            · exact absurd ⟨⟨h.1, .inl h.2.1⟩, h.2.2⟩ h2
            · exact absurd h h1
            · exact absurd ⟨⟨h.1, .inr ⟨⟨h.2.1, h.2.2.1⟩, h.2.2.2.1⟩⟩, h.2.2.2.2⟩ h2
          · exact ⟨r, hr, h⟩

theorem histScan_imp (new : Item) (hist : List Hist) :
    ((histScan new hist).2.1 = true → (histScan new hist).1 = true) ∧ ((histScan new hist).2.2 = true → (histScan new hist).1 = true) ∧
    ((histScan new hist).2.2 = true → CopyInHistory new hist) := by
  induction hist with
  | nil => simp [histScan]
  | cons r l ih =>
    have hc : CopyInHistory new l → CopyInHistory new (r :: l) := fun ⟨r, hr, h⟩ => ⟨r, List.mem_cons_of_mem _ hr, h⟩
    cases r with
    | item i =>
      unfold histScan
      split
      · rename_i h
        simp only [Bool.and_eq_true, Bool.not_eq_true', sameContent_iff] at h
        exact ⟨fun _ => rfl, fun _ => rfl, fun _ => ⟨_, List.mem_cons_self, h⟩⟩
      · split
        · exact ⟨fun _ => rfl, fun _ => rfl, fun h => by cases h⟩
        · exact ⟨ih.1, ih.2.1, fun h => hc (ih.2.2 h)⟩
    | hidden d =>
      unfold histScan
      split
      · rename_i h
        rw [sameContent_iff] at h
        exact ⟨fun _ => rfl, fun _ => rfl, fun _ => ⟨_, List.mem_cons_self, h⟩⟩
      · split
        · exact ⟨fun _ => rfl, fun _ => rfl, fun h => by cases h⟩
        · exact ⟨ih.1, ih.2.1, fun h => hc (ih.2.2 h)⟩

theorem successInHistory_iff (new : Item) (hist : List Hist) :
    successInHistory new hist = true ↔ ∃ i, .item i ∈ hist ∧ i.mode ≠ .force ∧ Success i ∧ SameTitle i.name i.key new.name new.key ∧
      new.score ≤ i.score := by
  unfold successInHistory
  rw [List.any_eq_true]
  constructor
  · rintro ⟨r, hr, h⟩
    cases r with
    | hidden d => cases h
    | item i =>
      simp only [Bool.and_eq_true, decide_eq_true_eq, bne_iff_ne, same_iff, success_iff] at h
      exact ⟨i, hr, h.1.1.1, h.2, h.1.1.2, h.1.2⟩
  · rintro ⟨i, hr, h1, h2, h3, h4⟩
    refine ⟨_, hr, ?_⟩
    simp only [Bool.and_eq_true, decide_eq_true_eq, bne_iff_ne, same_iff, success_iff]
    exact ⟨⟨⟨h1, h3⟩, h4⟩, h2⟩

/-- The same content is already in the queue. -/
def CopyInQueue (new : Item) (queue : List Item) : Prop :=
  new.isUrl = false ∧ ∃ e ∈ queue, e.id ≠ new.id ∧ SameHash new e.full e.filtered

/-- The reasons to leave a new download out, after dupe key and score were taken over. -/
def LeftOut (queue : List Item) (hist : List Hist) (new : Item) : Prop :=
  CopyInHistory new hist ∨ (∃ r ∈ hist, MarkedGood new.name new.key r) ∨
    (new.mode = .score ∧ (BetterInHistory new hist ∨ ∃ e ∈ queue, Active new e ∧ new.score ≤ e.score))

theorem assignKey_same (queue : List Item) (hist : List Hist) (new : Item) :
    ∃ k s, assignKey queue hist new = { new with key := k, score := s } := by
  have h : ∀ l (n : Item), ∃ k s, assignStep l n = { n with key := k, score := s } := by
    intro l n
    unfold assignStep
    split
    · split
      · exact ⟨_, _, rfl⟩
      · exact ⟨n.key, n.score, rfl⟩
    · exact ⟨n.key, n.score, rfl⟩
  unfold assignKey
  obtain ⟨k, s, h1⟩ := h (queue.map fun e => (e.name, e.key, e.score)) new
  obtain ⟨k', s', h2⟩ := h (histTexts hist) { new with key := k, score := s }
  rw [h1, h2]
  exact ⟨_, _, rfl⟩

/-- A new download is left out exactly for one of the reasons; the queue changes only in that duplicates with a lower score, which are not in
post-processing, are moved to the history; and if the new download is added, duplicates stay in the queue only in post-processing. -/
theorem new_download (gone : Item → Bool) (queue : List Item) (hist : List Hist) (new : Item) (hdel : new.del = .none)
    (hhint : new.hint = false) :
    ∃ q new', nzbFound gone queue hist new = some (q, new') ∧
      (new'.del ≠ .none ↔ CopyInQueue new queue ∨ LeftOut queue hist (assignKey queue hist new)) ∧
      QueueAfter (assignKey queue hist new) queue q ∧
      (new.mode = .score → new'.del = .none → ∀ e ∈ q, Active new' e → e.score < new'.score ∧ e.post = true) := by
  obtain ⟨k, s, hk⟩ := assignKey_same queue hist new
  unfold nzbFound
  by_cases hq : (queue.any (fun e => e.id != new.id && sameContent new e.full e.filtered && !new.isUrl)) = true
  · rw [if_pos hq]
    have hne : ({ new with del := if new.feed then .manual else .copy } : Item).del ≠ .none := by cases new.feed <;> simp
    refine ⟨_, _, rfl, ⟨fun _ => .inl ?_, fun _ => hne⟩, QueueAfter.refl _ _, fun _ h => absurd h hne⟩
    rw [List.any_eq_true] at hq
    obtain ⟨e, he, h⟩ := hq
    simp only [Bool.and_eq_true, Bool.not_eq_true', bne_iff_ne, sameContent_iff] at h
    exact ⟨h.2, e, he, h.1.1, h.1.2⟩
  · rw [if_neg hq]
    have hnq : ¬CopyInQueue new queue := by
      rintro ⟨hu, e, he, hid, hs⟩
      refine hq (List.any_eq_true.2 ⟨e, he, ?_⟩)
      simp only [Bool.and_eq_true, Bool.not_eq_true', bne_iff_ne, sameContent_iff]
      exact ⟨⟨hid, hs⟩, hu⟩
    have hd : (assignKey queue hist new).del = .none := by rw [hk]; exact hdel
    have hh : (assignKey queue hist new).hint = false := by rw [hk]; exact hhint
    have hm : (assignKey queue hist new).mode = new.mode := by rw [hk]
    rw [← hm]
    clear hm hk hq
    generalize assignKey queue hist new = n at *
    have hskip := histScan_skip n hist
    obtain ⟨hi1, hi2, hi3⟩ := histScan_imp n hist
    have hsucc := successInHistory_iff n hist
    have hskip1 : (histScan n hist).1 = true → LeftOut queue hist n := by
      intro h
      obtain ⟨r, hr, h | h⟩ := hskip.1 h
      · exact .inr (.inl ⟨r, hr, h⟩)
      · cases r with
        | item i => exact .inl ⟨_, hr, h⟩
        | hidden d =>
          rcases h with h | h
          · exact .inl ⟨_, hr, h⟩
          · exact .inr (.inr ⟨h.2.1, .inl ⟨_, hr, h.1, .inl h.2.2.1, h.2.2.2.2, h.2.2.2.1⟩⟩)
    have hsucc1 : n.mode = .score → successInHistory n hist = true → LeftOut queue hist n := by
      intro hmode h
      obtain ⟨i, hi, h⟩ := hsucc.1 h
      exact .inr (.inr ⟨hmode, .inl ⟨_, hi, h⟩⟩)
    have hleft : LeftOut queue hist n → (histScan n hist).1 = true ∨ (n.mode = .score ∧ (successInHistory n hist = true ∨
        ∃ e ∈ queue, Active n e ∧ n.score ≤ e.score)) := by
      rintro (⟨r, hr, h⟩ | ⟨r, hr, h⟩ | ⟨hmode, ⟨r, hr, h⟩ | h⟩)
      · refine .inl (hskip.2 ⟨r, hr, .inr ?_⟩)
        cases r with
        | item i => exact h
        | hidden d => exact .inl h
      · exact .inl (hskip.2 ⟨r, hr, .inl h⟩)
      · cases r with
        | item i => exact .inr ⟨hmode, .inl (hsucc.2 ⟨i, hr, h⟩)⟩
        | hidden d =>
          refine .inl (hskip.2 ⟨_, hr, ?_⟩)
          rcases h.2.1 with hs | hs
          · exact .inr (.inr ⟨h.1, hmode, hs, h.2.2.2, h.2.2.1⟩)
          · exact .inl ⟨h.1, hs, h.2.2.1⟩
      · exact .inr ⟨hmode, .inr h⟩
    dsimp only
    rw [hh, Bool.and_false, if_neg (by simp)]
    by_cases h2 : (!(histScan n hist).2.2 && !(histScan n hist).2.1 && n.mode == .score && successInHistory n hist) = true
    · rw [if_pos h2]
      simp only [Bool.and_eq_true, Bool.not_eq_true', beq_iff_eq] at h2
      exact ⟨_, _, rfl, ⟨fun _ => .inr (hsucc1 h2.1.2 h2.2), fun _ => by simp⟩, QueueAfter.refl _ _, fun _ h => by simp at h⟩
    · rw [if_neg h2]
      by_cases h3 : (histScan n hist).1 = true
      · rw [if_pos h3]
        have hne : ({ n with del := if n.feed && !false then Del.manual else if (histScan n hist).2.2 then .copy else .good } : Item).del ≠ .none := by
          cases n.feed <;> cases (histScan n hist).2.2 <;> simp
        exact ⟨_, _, rfl, ⟨fun _ => .inr (hskip1 h3), fun _ => hne⟩, QueueAfter.refl _ _, fun _ h => absurd h hne⟩
      · rw [if_neg h3]
        have hg : (histScan n hist).2.1 = false := by
          cases h : (histScan n hist).2.1 with
          | false => rfl
          | true => exact absurd (hi1 h) h3
        have hs : (histScan n hist).2.2 = false := by
          cases h : (histScan n hist).2.2 with
          | false => rfl
          | true => exact absurd (hi2 h) h3
        rw [hg, hs] at h2
        by_cases h4 : n.mode = .score
        · rw [if_pos (by rw [h4]; rfl), scanQueue_eq]
          have hns : ¬successInHistory n hist = true := by
            intro h; apply h2; rw [h, h4]; rfl
          dsimp only
          refine ⟨_, _, rfl, ?_, scanSpec_after gone n queue, ?_⟩
          · have ht := scanSpec_true gone n queue
            cases hb : (scanSpec gone n queue).2 with
            | true =>
              rw [if_pos rfl]
              exact ⟨fun _ => .inr (.inr (.inr ⟨h4, .inr (ht.1 hb)⟩)), fun _ => by simp⟩
            | false =>
              rw [if_neg (by simp)]
              refine ⟨fun h => absurd hd h, fun h => ?_⟩
              rcases h with h | h
              · exact absurd h hnq
              · rcases hleft h with h | ⟨_, h | h⟩
                · exact absurd h h3
                · exact absurd h hns
                · rw [ht.2 h] at hb; cases hb
          · intro _
            cases hb : (scanSpec gone n queue).2 with
            | true => rw [if_pos rfl]; intro h; simp at h
            | false =>
              rw [if_neg (by simp)]
              exact fun _ => scanSpec_false gone n queue hb
        · rw [if_neg (by rw [beq_iff_eq]; exact h4)]
          refine ⟨_, _, rfl, ⟨fun h => absurd hd h, fun h => ?_⟩, QueueAfter.refl _ _, fun h => absurd h h4⟩
          rcases h with h | h
          · exact absurd h hnq
          · rcases hleft h with h | h
            · exact absurd h h3
            · exact absurd h.1 h4

/-- A new download of score 7 displaces one of score 5, which is being downloaded, and leaves one of score 3 in post-processing alone. -/
example : nzbFound (fun e => e.id == 1) [{ exItem with id := 1, score := 5 }, { exItem with id := 2, score := 3, post := true },
      { exItem with id := 3, score := 6 }] []
      { exItem with id := 9, score := 7 }
    = some ([{ exItem with id := 2, score := 3, post := true }, { exItem with id := 3, score := 6, del := .dupe }],
        { exItem with id := 9, score := 7 }) := by decide +kernel

example : (nzbFound (fun _ => true) [{ exItem with id := 1, score := 8 }] exHist { exItem with id := 9, key := "K", score := 7 }).map
    (fun r => (r.1.length, r.2.del)) = some (1, .dupe) := by decide +kernel

example : (nzbFound (fun _ => true) [{ exItem with id := 1, score := 8 }] exHist { exItem with id := 9, key := "K", score := 4 }).map
    (fun r => (r.1.length, r.2.del)) = some (1, .good) := by decide +kernel

/-- Dupe key and score are taken over only by a download which has none, from an entry with the same name. -/
theorem taken_over (queue : List Item) (hist : List Hist) (new : Item) (h : assignKey queue hist new ≠ new) :
    new.key = "" ∧ new.score = 0 ∧
    ((∃ e ∈ queue, e.name = new.name ∧ (e.key ≠ "" ∨ e.score ≠ 0) ∧ assignKey queue hist new = { new with key := e.key, score := e.score }) ∨
     (∃ i, .item i ∈ hist ∧ i.isUrl = false ∧ i.name = new.name ∧ (i.key ≠ "" ∨ i.score ≠ 0) ∧
        assignKey queue hist new = { new with key := i.key, score := i.score }) ∨
     (∃ d, .hidden d ∈ hist ∧ d.name = new.name ∧ (d.key ≠ "" ∨ d.score ≠ 0) ∧
        assignKey queue hist new = { new with key := d.key, score := d.score })) := by
  have htake : ∀ name l k s, takeFrom name l = some (k, s) → (name, k, s) ∈ l ∧ (k ≠ "" ∨ s ≠ 0) := by
    intro name l k s
    induction l with
    | nil => intro h; cases h
    | cons x l ih =>
      obtain ⟨n, k', s'⟩ := x
      unfold takeFrom
      split
      · rename_i hc
        simp only [Bool.and_eq_true, Bool.or_eq_true, beq_iff_eq, bne_iff_ne] at hc
        intro h; cases h
        rw [hc.1]
        exact ⟨List.mem_cons_self, hc.2⟩
      · intro h; exact ⟨List.mem_cons_of_mem _ (ih h).1, (ih h).2⟩
  have htexts : ∀ l n k s, (n, k, s) ∈ histTexts l →
      (∃ i, .item i ∈ l ∧ i.isUrl = false ∧ i.name = n ∧ i.key = k ∧ i.score = s) ∨
      (∃ d, .hidden d ∈ l ∧ d.name = n ∧ d.key = k ∧ d.score = s) := by
    intro l n k s
    induction l with
    | nil => intro h; cases h
    | cons x l ih =>
      have lift : ((∃ i, .item i ∈ l ∧ i.isUrl = false ∧ i.name = n ∧ i.key = k ∧ i.score = s) ∨
          (∃ d, .hidden d ∈ l ∧ d.name = n ∧ d.key = k ∧ d.score = s)) →
          ((∃ i, .item i ∈ x :: l ∧ i.isUrl = false ∧ i.name = n ∧ i.key = k ∧ i.score = s) ∨
          (∃ d, .hidden d ∈ x :: l ∧ d.name = n ∧ d.key = k ∧ d.score = s)) := by
        rintro (⟨i, hi, h⟩ | ⟨d, hd, h⟩)
        · exact .inl ⟨i, List.mem_cons_of_mem _ hi, h⟩
        · exact .inr ⟨d, List.mem_cons_of_mem _ hd, h⟩
      cases x with
      | item i =>
        unfold histTexts
        cases hu : i.isUrl with
        | true => rw [if_pos rfl]; exact fun h => lift (ih h)
        | false =>
          rw [if_neg (by simp)]
          intro h
          rcases List.mem_cons.1 h with h | h
          · cases h; exact .inl ⟨i, List.mem_cons_self, hu, rfl, rfl, rfl⟩
          · exact lift (ih h)
      | hidden d =>
        unfold histTexts
        intro h
        rcases List.mem_cons.1 h with h | h
        · cases h; exact .inr ⟨d, List.mem_cons_self, rfl, rfl, rfl⟩
        · exact lift (ih h)
  have hnot : ∀ l (n : Item), (n.key ≠ "" ∨ n.score ≠ 0) → assignStep l n = n := by
    intro l n hn
    unfold assignStep
    rw [if_neg]
    simp only [Bool.and_eq_true, beq_iff_eq]
    rintro ⟨ha, hb⟩
    rcases hn with h | h
    · exact h ha
    · exact h hb
  have hstep : ∀ l, assignStep l new = new ∨ ∃ k s, (new.name, k, s) ∈ l ∧ (k ≠ "" ∨ s ≠ 0) ∧
      assignStep l new = { new with key := k, score := s } := by
    intro l
    unfold assignStep
    split
    · cases ht : takeFrom new.name l with
      | none => exact .inl rfl
      | some ks => exact .inr ⟨ks.1, ks.2, (htake _ _ _ _ ht).1, (htake _ _ _ _ ht).2, rfl⟩
    · exact .inl rfl
  have hempty : new.key = "" ∧ new.score = 0 := by
    by_cases h1 : new.key = ""
    · by_cases h2 : new.score = 0
      · exact ⟨h1, h2⟩
      · refine absurd ?_ h
        unfold assignKey
        rw [hnot _ _ (.inr h2), hnot _ _ (.inr h2)]
    · refine absurd ?_ h
      unfold assignKey
      rw [hnot _ _ (.inl h1), hnot _ _ (.inl h1)]
  refine ⟨hempty.1, hempty.2, ?_⟩
  unfold assignKey at h ⊢
  rcases hstep (queue.map fun e => (e.name, e.key, e.score)) with hq | ⟨k, s, hm, hne, hq⟩
  · rw [hq] at h ⊢
    right
    rcases hstep (histTexts hist) with hh | ⟨k, s, hm, hne, hh⟩
    · exact absurd hh h
    · rw [hh]
      rcases htexts _ _ _ _ hm with ⟨i, hi, hu, hn, rfl, rfl⟩ | ⟨d, hd, hn, rfl, rfl⟩
      · exact .inl ⟨i, hi, hu, hn, hne, rfl⟩
      · exact .inr ⟨d, hd, hn, hne, rfl⟩
  · left
    obtain ⟨e, he, heq⟩ := List.mem_map.1 hm
    simp only [Prod.mk.injEq] at heq
    obtain ⟨hn, rfl, rfl⟩ := heq
    refine ⟨e, he, hn, hne, ?_⟩
    rw [hq, hnot]
    exact hne

example : assignKey [{ exItem with id := 3, key := "K", score := 8 }] [] exItem = { exItem with key := "K", score := 8 } := by decide +kernel

/-! ## Where the claims fail -/

/-- A download which is put back for a failed one (with the hint set) is downloaded although the same content is in the history, if a duplicate
which was marked as good is found first: the search stops there. -/
theorem copy_missed_on_redownload : ∃ (hist : List Hist) (new : Item), new.hint = true ∧ CopyInHistory new hist ∧
    nzbFound (fun _ => true) [] hist new = some ([], new) ∧ new.del = .none ∧
    (nzbFound (fun _ => true) [] hist.reverse new).map (·.2.del) = some .copy := by
  refine ⟨[.item { exItem with id := 2, mark := .good, full := 5 }, .item { exItem with id := 3, full := 6 }],
    { exItem with hint := true, full := 6 }, rfl, ⟨.item { exItem with id := 3, full := 6 }, by simp, rfl, .inl ⟨by decide, rfl⟩⟩, ?_⟩
  decide +kernel

/-- Being duplicates is not transitive: an entry without dupe key has duplicates of two different keys. -/
theorem duplicates_not_transitive : ∃ n1 k1 n2 k2 n3 k3, SameTitle n1 k1 n2 k2 ∧ SameTitle n2 k2 n3 k3 ∧ ¬SameTitle n1 k1 n3 k3 :=
  ⟨"a", "k", "a", "", "a", "l", (same_iff _ _ _ _).1 (by decide +kernel), (same_iff _ _ _ _).1 (by decide +kernel),
    fun h => absurd ((same_iff _ _ _ _).2 h) (by decide +kernel)⟩

/-- So a queued download can be moved to the history in favour of a new one which is not downloaded either: neither of them is in the queue any more,
and the one which is has another title than the first. -/
theorem displaced_for_nothing : ∃ (queue : List Item) (new : Item) (a : Item), a ∈ queue ∧
    (nzbFound (fun _ => true) queue [] new).map (fun r => (r.1.map Item.id, r.2.del)) = some ([2], .dupe) ∧
    a.id = 1 ∧ (∀ e ∈ queue, e.id = 2 → ¬SameTitle a.name a.key e.name e.key) := by
  refine ⟨[{ exItem with id := 1, name := "Show 1", key := "k", score := 1 }, { exItem with id := 2, name := "Show one", score := 9 }],
    { exItem with id := 3, name := "Show one", key := "k", score := 5 }, { exItem with id := 1, name := "Show 1", key := "k", score := 1 },
    by simp, by decide +kernel, rfl, ?_⟩
  intro e he hid
  simp only [List.mem_cons, List.not_mem_nil, or_false] at he
  rcases he with rfl | rfl
  · cases hid
  · exact fun h => absurd ((same_iff _ _ _ _).2 h) (by decide +kernel)

end Verif.Dupe
