import Verif.Status
import Verif.HealthProps

/-! C131: the status shown for a finished download. -/

set_option linter.unusedSimpArgs false

namespace Verif.Status
open Verif.Counters Verif.CStr

/-! ### Specification -/

/-- The sizes of the download belong together (they do after any history of a download, `Counters.good_sizes`). -/
def Proper (i : Info) : Prop := Sizes i.n.size i.n.parSize i.n.curFailed i.n.parCurFailed

/-- A script reported an error. -/
def ScriptFailed (i : Info) : Prop := Script.failure ∈ i.scripts

instance (i : Info) : Decidable (ScriptFailed i) := inferInstanceAs (Decidable (_ ∈ _))

/-- The user did not mark the download, and it was not deleted. -/
def Plain (i : Info) : Prop := i.mark = .none ∧ i.del = .none

/-- Nothing of post-processing failed, neither repair, unpacking nor moving. -/
def NoError (i : Info) : Prop := i.par ≠ .failure ∧ i.unpack ≠ .failure ∧ i.move ≠ .failure

/-- The files were neither checked nor unpacked, so the health alone counts. -/
def Unchecked (i : Info) : Prop := (i.par = .none ∨ i.par = .skipped) ∧ (i.unpack = .none ∨ i.unpack = .skipped)

/-- NZBPP_HEALTH is below NZBPP_CRITICALHEALTH. -/
def Lost (i : Info) : Prop := ∃ h c, calcHealth i.n = some h ∧ calcCriticalHealth i.n false = some c ∧ h < c

/-- No byte except in par2-files failed. -/
def Complete (i : Info) : Prop := i.n.curFailed = i.n.parCurFailed

/-- Repair or unpacking stopped with something left to do for the user. -/
def Open (i : Info) : Prop := i.par = .manual ∨ i.par = .repairPossible ∨ i.unpack = .space ∨ i.unpack = .password

/-- The reason behind every text. -/
inductive Shown (i : Info) : Bytes → Prop
  | bad (h : i.mark = .bad ∨ (i.mark = .none ∧ i.del = .bad)) : Shown i (lit "FAILURE/BAD")
  | good (h : i.mark = .good) : Shown i (lit "SUCCESS/GOOD")
  | mark (h : i.mark = .success) : Shown i (lit "SUCCESS/MARK")
  | manual (h : i.mark = .none ∧ i.del = .manual) : Shown i (lit "DELETED/MANUAL")
  | dupe (h : i.mark = .none ∧ i.del = .dupe) : Shown i (lit "DELETED/DUPE")
  | delGood (h : i.mark = .none ∧ i.del = .good) : Shown i (lit "DELETED/GOOD")
  | copy (h : i.mark = .none ∧ i.del = .copy) : Shown i (lit "DELETED/COPY")
  | scan (h : i.mark = .none ∧ i.del = .scan) : Shown i (lit "FAILURE/SCAN")
  | health (h : (i.mark = .none ∧ i.del = .health) ∨ (Plain i ∧ Unchecked i ∧ Lost i)) : Shown i (lit "FAILURE/HEALTH")
  | par (h : Plain i ∧ i.par = .failure) : Shown i (lit "FAILURE/PAR")
  | unpack (h : Plain i ∧ i.par ≠ .failure ∧ i.unpack = .failure) : Shown i (lit "FAILURE/UNPACK")
  | move (h : Plain i ∧ i.move = .failure) : Shown i (lit "FAILURE/MOVE")
  | damaged (h : Plain i ∧ NoError i ∧ i.par = .manual) : Shown i (lit "WARNING/DAMAGED")
  | repairable (h : Plain i ∧ NoError i ∧ i.par = .repairPossible) : Shown i (lit "WARNING/REPAIRABLE")
  | warnHealth (h : Plain i ∧ NoError i ∧ Unchecked i ∧ ¬ Lost i ∧ ¬ Complete i) : Shown i (lit "WARNING/HEALTH")
  | okHealth (h : Plain i ∧ NoError i ∧ Unchecked i ∧ Complete i) : Shown i (lit "SUCCESS/HEALTH")
  | space (h : Plain i ∧ NoError i ∧ i.unpack = .space) : Shown i (lit "WARNING/SPACE")
  | password (h : Plain i ∧ NoError i ∧ i.unpack = .password) : Shown i (lit "WARNING/PASSWORD")
  | all (h : Plain i ∧ NoError i ∧ (i.unpack = .success ∨ i.par = .success) ∧ Script.success ∈ i.scripts ∧ ¬ ScriptFailed i) :
      Shown i (lit "SUCCESS/ALL")
  | okUnpack (h : Plain i ∧ NoError i ∧ i.unpack = .success ∧ Script.success ∉ i.scripts ∧ ¬ ScriptFailed i) :
      Shown i (lit "SUCCESS/UNPACK")
  | okPar (h : Plain i ∧ NoError i ∧ i.par = .success ∧ Script.success ∉ i.scripts ∧ ¬ ScriptFailed i) : Shown i (lit "SUCCESS/PAR")
  | script (h : Plain i ∧ NoError i ∧ ScriptFailed i) : Shown i (lit "WARNING/SCRIPT")

/-! ### Lemmas -/

theorem ts_bad : beforeSlash (lit "FAILURE/BAD") = lit "FAILURE" := by decide +kernel
theorem ts_good : beforeSlash (lit "SUCCESS/GOOD") = lit "SUCCESS" := by decide +kernel
theorem ts_mark : beforeSlash (lit "SUCCESS/MARK") = lit "SUCCESS" := by decide +kernel
theorem ts_health : beforeSlash (lit "FAILURE/HEALTH") = lit "FAILURE" := by decide +kernel
theorem ts_manual : beforeSlash (lit "DELETED/MANUAL") = lit "DELETED" := by decide +kernel
theorem ts_dupe : beforeSlash (lit "DELETED/DUPE") = lit "DELETED" := by decide +kernel
theorem ts_dgood : beforeSlash (lit "DELETED/GOOD") = lit "DELETED" := by decide +kernel
theorem ts_copy : beforeSlash (lit "DELETED/COPY") = lit "DELETED" := by decide +kernel
theorem ts_scan : beforeSlash (lit "FAILURE/SCAN") = lit "FAILURE" := by decide +kernel
theorem ts_par : beforeSlash (lit "FAILURE/PAR") = lit "FAILURE" := by decide +kernel
theorem ts_unpack : beforeSlash (lit "FAILURE/UNPACK") = lit "FAILURE" := by decide +kernel
theorem ts_move : beforeSlash (lit "FAILURE/MOVE") = lit "FAILURE" := by decide +kernel
theorem ts_damaged : beforeSlash (lit "WARNING/DAMAGED") = lit "WARNING" := by decide +kernel
theorem ts_repairable : beforeSlash (lit "WARNING/REPAIRABLE") = lit "WARNING" := by decide +kernel
theorem ts_whealth : beforeSlash (lit "WARNING/HEALTH") = lit "WARNING" := by decide +kernel
theorem ts_shealth : beforeSlash (lit "SUCCESS/HEALTH") = lit "SUCCESS" := by decide +kernel
theorem ts_space : beforeSlash (lit "WARNING/SPACE") = lit "WARNING" := by decide +kernel
theorem ts_password : beforeSlash (lit "WARNING/PASSWORD") = lit "WARNING" := by decide +kernel
theorem ts_all : beforeSlash (lit "SUCCESS/ALL") = lit "SUCCESS" := by decide +kernel
theorem ts_sunpack : beforeSlash (lit "SUCCESS/UNPACK") = lit "SUCCESS" := by decide +kernel
theorem ts_spar : beforeSlash (lit "SUCCESS/PAR") = lit "SUCCESS" := by decide +kernel
theorem ts_script : beforeSlash (lit "WARNING/SCRIPT") = lit "WARNING" := by decide +kernel
theorem ts_internal : beforeSlash (lit "FAILURE/INTERNAL_ERROR") = lit "FAILURE" := by decide +kernel
theorem ts_fetch : beforeSlash (lit "FAILURE/FETCH") = lit "FAILURE" := by decide +kernel
theorem ts_skipped : beforeSlash (lit "WARNING/SKIPPED") = lit "WARNING" := by decide +kernel
theorem ts_shidden : beforeSlash (lit "SUCCESS/HIDDEN") = lit "SUCCESS" := by decide +kernel
theorem ts_fhidden : beforeSlash (lit "FAILURE/HIDDEN") = lit "FAILURE" := by decide +kernel

/-- The four results. -/
inductive Res | success | failure | warning | deleted
deriving DecidableEq

/-- Their names. -/
def word : Res → Bytes
  | .success => lit "SUCCESS" | .failure => lit "FAILURE" | .warning => lit "WARNING" | .deleted => lit "DELETED"

theorem word_inj {a b : Res} (h : word a = word b) : a = b := by
  revert h; cases a <;> cases b <;> decide +kernel

theorem total_fold (l : List Script) (st : Script) :
    (l.foldl (fun st s => if (s = .success ∧ st = .none) ∨ s = .failure then s else st) st) =
      if st = .failure ∨ Script.failure ∈ l then .failure else if st = .success ∨ Script.success ∈ l then .success else .none := by
  induction l generalizing st with
  | nil => cases st <;> simp
  | cons s l ih =>
    rw [List.foldl_cons, ih]
    cases s <;> cases st <;> simp

/-- **C131.** The result of the scripts (NZBPP_SCRIPTSTATUS): a failure if a script failed, in whatever order they ran; otherwise a success
if one succeeded. -/
theorem scripts_total (l : List Script) :
    totalScript l = if Script.failure ∈ l then .failure else if Script.success ∈ l then .success else .none := by
  unfold totalScript
  rw [total_fold]
  simp

example : totalScript [.failure, .success, .none] = .failure ∧ totalScript [.none, .success] = .success := by decide +kernel

/-- The result according to the specification. -/
def res (i : Info) (scriptFailed lost complete : Bool) : Res :=
  if i.mark = .bad then .failure
  else if i.mark = .good ∨ i.mark = .success then .success
  else match i.del with
    | .health | .bad | .scan => .failure
    | .manual | .dupe | .good | .copy => .deleted
    | .none =>
      if i.par = .failure ∨ i.unpack = .failure ∨ i.move = .failure then .failure
      else if i.par = .manual ∨ i.par = .repairPossible then .warning
      else if untouched i then
        (if lost then .failure else if !complete then .warning else if scriptFailed then .warning else .success)
      else if i.unpack = .space ∨ i.unpack = .password then .warning
      else if scriptFailed then .warning else .success

theorem status_res {i : Info} (hs : Proper i) (hu : i.isUrl = false) (ign : Bool) {h c : Int} (hh : calcHealth i.n = some h)
    (hc : calcCriticalHealth i.n false = some c) :
    ∃ st, textStatus i ign = some st ∧ st ≠ lit "FAILURE/INTERNAL_ERROR" ∧
      beforeSlash st = word (res i (!ign && decide (Script.failure ∈ i.scripts)) (decide (h < c)) (decide (h = 1000))) := by
  obtain ⟨h', e1, _, b, _⟩ := health_bounds hs
  rw [hh] at e1
  cases e1
  unfold textStatus
  rw [if_neg (by simp [hu])]
  unfold nzbStatus
  rw [hh, hc]
  dsimp only [bind, Option.bind, pure]
  refine ⟨_, rfl, ?_⟩
  have hscr : (if ign = true then Script.success else totalScript i.scripts) =
      if (!ign && decide (Script.failure ∈ i.scripts)) then .failure
      else if ign ∨ Script.success ∈ i.scripts then .success else .none := by
    rw [scripts_total]
    cases ign <;> simp
  rw [hscr]
  generalize (!ign && decide (Script.failure ∈ i.scripts)) = f
  generalize hg : (if f = true then Script.failure else if ign = true ∨ Script.success ∈ i.scripts then Script.success else Script.none) = s
  have hsf : s = .failure ↔ f = true := by
    subst hg; cases f
    · simp only [Bool.false_eq_true, if_false, iff_false]; split <;> decide
    · simp
  clear hg hscr
  have hfin : ∀ {a : Bytes} {r : Res} (b : Bytes) (r' : Res), a = b → r = r' →
      (b ≠ lit "FAILURE/INTERNAL_ERROR" ∧ beforeSlash b = word r') →
      (a ≠ lit "FAILURE/INTERNAL_ERROR" ∧ beforeSlash a = word r) := fun _ _ e e' p => e ▸ e' ▸ p
  obtain ⟨isUrl, mark, del, par, unpack, move, url, scripts, n⟩ := i
  dsimp only [untouched, res] at *
  cases mark
  case bad => exact hfin (lit "FAILURE/BAD") .failure rfl rfl (by decide +kernel)
  case good => exact hfin (lit "SUCCESS/GOOD") .success rfl rfl (by decide +kernel)
  case success => exact hfin (lit "SUCCESS/MARK") .success rfl rfl (by decide +kernel)
  case none =>
    cases del
    case health => exact hfin (lit "FAILURE/HEALTH") .failure rfl rfl (by decide +kernel)
    case manual => exact hfin (lit "DELETED/MANUAL") .deleted rfl rfl (by decide +kernel)
    case dupe => exact hfin (lit "DELETED/DUPE") .deleted rfl rfl (by decide +kernel)
    case bad => exact hfin (lit "FAILURE/BAD") .failure rfl rfl (by decide +kernel)
    case good => exact hfin (lit "DELETED/GOOD") .deleted rfl rfl (by decide +kernel)
    case copy => exact hfin (lit "DELETED/COPY") .deleted rfl rfl (by decide +kernel)
    case scan => exact hfin (lit "FAILURE/SCAN") .failure rfl rfl (by decide +kernel)
    case none =>
      simp only [reduceCtorEq, if_false, false_or]
      by_cases hp : par = .failure
      · subst hp; exact hfin (lit "FAILURE/PAR") .failure rfl rfl (by decide +kernel)
      by_cases hun : unpack = .failure
      · subst hun; rw [if_neg hp, if_pos rfl, if_pos (Or.inr (Or.inl rfl))]; decide +kernel
      by_cases hm : move = .failure
      · subst hm; rw [if_neg hp, if_neg hun, if_pos rfl, if_pos (Or.inr (Or.inr rfl))]; decide +kernel
      rw [if_neg hp, if_neg hun, if_neg hm,
        if_neg (show ¬ (par = .failure ∨ unpack = .failure ∨ move = .failure) from by simp only [hp, hun, hm, or_false, not_false_eq_true])]
      have e1 : (h < 1000) = (h ≠ 1000) := propext ⟨fun _ => by omega, fun _ => by omega⟩
      have e2 : (h ≥ c) = ¬ (h < c) := propext ⟨fun _ => by omega, fun _ => by omega⟩
      simp only [e1, e2]
      generalize hA : decide (h < c) = A
      generalize hB : decide (h = 1000) = B
      have hA' : (h < c) = (A = true) := by subst hA; simp
      have hB' : (h = 1000) = (B = true) := by subst hB; simp
      simp only [hA', hB', ne_eq]
      clear hA hB hA' hB' e1 e2 hfin hm
      cases par <;> first | exact absurd rfl hp | skip
      all_goals cases unpack <;> first | exact absurd rfl hun | skip
      all_goals clear hp hun
      all_goals (cases f <;> cases s <;> first | (exfalso; revert hsf; decide) | skip)
      all_goals (cases A <;> cases B <;> simp only [reduceCtorEq, if_true, if_false, true_or, or_true, or_false, false_or, decide_true,
        decide_false, Bool.and_true, Bool.true_and, Bool.and_false, Bool.false_and, true_and, and_true, false_and, and_false, not_true,
        not_false_eq_true, Bool.false_eq_true, Bool.not_true, Bool.not_false] <;> decide +kernel)

/-- **C131.** Every finished download has a status, its first part is one of four words, and it is never an internal error. -/
theorem one_of_four {i : Info} (hs : Proper i) (hu : i.isUrl = false) (ign : Bool) :
    ∃ st r, textStatus i ign = some st ∧ beforeSlash st = word r ∧ st ≠ lit "FAILURE/INTERNAL_ERROR" := by
  obtain ⟨h, hh, _⟩ := health_bounds hs
  obtain ⟨c, hc, _⟩ := critical_bounds hs false
  obtain ⟨st, e, n, b⟩ := status_res hs hu ign hh hc
  exact ⟨st, _, e, b, n⟩

theorem res_of {i : Info} {st : Bytes} (hs : Proper i) (hu : i.isUrl = false) (ign : Bool) (he : textStatus i ign = some st) :
    ∃ lost complete : Bool, beforeSlash st = word (res i (!ign && decide (Script.failure ∈ i.scripts)) lost complete) ∧
      (lost = true ↔ Lost i) ∧ (complete = true ↔ Complete i) ∧ (lost = true → complete = false) := by
  obtain ⟨h, hh, _, b, hx⟩ := health_bounds hs
  obtain ⟨c, hc, _, b2⟩ := critical_bounds hs false
  obtain ⟨st', e, n, b⟩ := status_res hs hu ign hh hc
  rw [he] at e
  cases e
  refine ⟨_, _, b, ?_, ?_, ?_⟩
  · simp only [decide_eq_true_eq, Lost]
    constructor
    · exact fun hl => ⟨h, c, hh, hc, hl⟩
    · rintro ⟨h', c', e1, e2, hl⟩
      rw [hh] at e1; rw [hc] at e2; cases e1; cases e2; exact hl
  · simp only [decide_eq_true_eq, Complete]; exact hx
  · simp only [decide_eq_true_eq, decide_eq_false_iff_not]; omega

theorem word_eq {st : Bytes} {r r' : Res} (h : beforeSlash st = word r) : beforeSlash st = word r' ↔ r = r' := by
  rw [h]; exact ⟨word_inj, fun e => by rw [e]⟩

/-- **C131.** When success is shown (`ign`: to the scripts, which see the result without their own): the user marked the download as good,
or nothing was deleted, nothing failed, nothing is left to do, no script failed, and if the files were neither checked nor unpacked, all of
them are complete. -/
theorem shows_success {i : Info} {st : Bytes} (hs : Proper i) (hu : i.isUrl = false) (ign : Bool) (he : textStatus i ign = some st) :
    beforeSlash st = lit "SUCCESS" ↔ i.mark = .good ∨ i.mark = .success ∨
      (Plain i ∧ NoError i ∧ ¬ Open i ∧ (ign = false → ¬ ScriptFailed i) ∧ (Unchecked i → Complete i)) := by
  obtain ⟨lost, complete, b, h1, h2, h3⟩ := res_of hs hu ign he
  rw [show lit "SUCCESS" = word .success from rfl, word_eq b, ← h2]
  have hsf : (ign = false → ¬ ScriptFailed i) ↔ (!ign && decide (Script.failure ∈ i.scripts)) = false := by
    unfold ScriptFailed; cases ign <;> simp
  rw [hsf]
  generalize (!ign && decide (Script.failure ∈ i.scripts)) = f
  clear h1 h2 b hsf he hs
  obtain ⟨isUrl, mark, del, par, unpack, move, url, scripts, n⟩ := i
  dsimp only [res, Plain, NoError, Open, Unchecked, untouched]
  cases mark <;> try simp
  cases del <;> try simp
  by_cases hm : move = .failure <;> cases par <;> cases unpack <;> simp [hm] <;> cases lost <;> simp at h3 <;>
    cases complete <;> simp at h3 ⊢

/-- **C131.** When a failure is shown: the user marked the download as bad, it was removed for its health, by a script or because it could
not be read, or repair, unpacking or moving failed, or the files were neither checked nor unpacked and the health is below the critical
one. The scripts' own results don't matter. -/
theorem shows_failure {i : Info} {st : Bytes} (hs : Proper i) (hu : i.isUrl = false) (ign : Bool) (he : textStatus i ign = some st) :
    beforeSlash st = lit "FAILURE" ↔ i.mark = .bad ∨
      (i.mark = .none ∧ (i.del = .health ∨ i.del = .bad ∨ i.del = .scan)) ∨ (Plain i ∧ (¬ NoError i ∨ (Unchecked i ∧ Lost i))) := by
  obtain ⟨lost, complete, b, h1, h2, h3⟩ := res_of hs hu ign he
  rw [show lit "FAILURE" = word .failure from rfl, word_eq b, ← h1]
  generalize (!ign && decide (Script.failure ∈ i.scripts)) = f
  clear h1 h2 b he hs
  obtain ⟨isUrl, mark, del, par, unpack, move, url, scripts, n⟩ := i
  dsimp only [res, Plain, NoError, Open, Unchecked, untouched]
  cases mark <;> try simp
  cases del <;> try simp
  by_cases hm : move = .failure <;> cases par <;> cases unpack <;> simp [hm] <;> cases lost <;> cases complete <;>
    first | (exfalso; revert h3; decide) | (cases f <;> simp)

/-- **C131.** When a download is shown as deleted. -/
theorem shows_deleted {i : Info} {st : Bytes} (hs : Proper i) (hu : i.isUrl = false) (ign : Bool) (he : textStatus i ign = some st) :
    beforeSlash st = lit "DELETED" ↔ i.mark = .none ∧ (i.del = .manual ∨ i.del = .dupe ∨ i.del = .good ∨ i.del = .copy) := by
  obtain ⟨lost, complete, b, h1, h2, h3⟩ := res_of hs hu ign he
  rw [show lit "DELETED" = word .deleted from rfl, word_eq b]
  generalize (!ign && decide (Script.failure ∈ i.scripts)) = f
  clear h1 h2 b he hs
  obtain ⟨isUrl, mark, del, par, unpack, move, url, scripts, n⟩ := i
  dsimp only [res, Plain, NoError, Open, Unchecked, untouched]
  cases mark <;> try simp
  cases del <;> try simp
  by_cases hm : move = .failure <;> cases par <;> cases unpack <;> simp [hm] <;> cases lost <;> cases complete <;>
    first | (exfalso; revert h3; decide) | (cases f <;> simp)

/-- **C131.** Every text tells the truth about the reason. -/
theorem reason {i : Info} {st : Bytes} (hs : Proper i) (hu : i.isUrl = false) (he : textStatus i false = some st) : Shown i st := by
  obtain ⟨h, hh, _, b, hx⟩ := health_bounds hs
  obtain ⟨c, hc, _, b2⟩ := critical_bounds hs false
  have hne := (status_res hs hu false hh hc)
  have hl : h < c ↔ Lost i := by
    constructor
    · exact fun hl => ⟨h, c, hh, hc, hl⟩
    · rintro ⟨h', c', e1, e2, hl⟩
      rw [hh] at e1; rw [hc] at e2; cases e1; cases e2; exact hl
  obtain ⟨st', e, n, -⟩ := hne
  rw [he] at e
  cases e
  unfold textStatus at he
  rw [if_neg (by simp [hu])] at he
  unfold nzbStatus at he
  rw [hh, hc] at he
  dsimp only [bind, Option.bind, pure] at he
  rw [scripts_total] at he
  simp only [Bool.false_eq_true, if_false] at he
  have he := Option.some.inj he
  have hx' : h = 1000 ↔ Complete i := hx
  have hun : untouched i = true ↔ Unchecked i := by simp [untouched, Unchecked]
  have hsf : (Script.failure ∈ i.scripts) ↔ ScriptFailed i := Iff.rfl
  have hS1 : ∀ x : Script, x = (if Script.failure ∈ i.scripts then Script.failure else if Script.success ∈ i.scripts then .success else .none) →
      (x = .failure ↔ ScriptFailed i) ∧ (x = .success ↔ ¬ ScriptFailed i ∧ Script.success ∈ i.scripts) ∧
      (x = .none ↔ ¬ ScriptFailed i ∧ Script.success ∉ i.scripts) := by
    intro x hx
    unfold ScriptFailed
    by_cases h1 : Script.failure ∈ i.scripts <;> by_cases h2 : Script.success ∈ i.scripts <;> simp [h1, h2] at hx <;> subst hx <;> simp [h1, h2]
  generalize hg : (if Script.failure ∈ i.scripts then Script.failure else if Script.success ∈ i.scripts then .success else .none) = x at he
  obtain ⟨x1, x2, x3⟩ := hS1 x hg.symm
  clear hS1 hg
  have hd : ∀ {m : Mark}, m ≠ .bad → m ≠ .good → m ≠ .success → m = .none := by intro m; cases m <;> simp
  have hdd : ∀ {m : Del}, m ≠ .health → m ≠ .manual → m ≠ .dupe → m ≠ .bad → m ≠ .good → m ≠ .copy → m ≠ .scan → m = .none := by
    intro m; cases m <;> simp
  revert n
  rw [← he]
  clear he
  by_cases m1 : i.mark = .bad
  · rw [if_pos m1]; exact fun _ => .bad (.inl m1)
  rw [if_neg m1]
  by_cases m2 : i.mark = .good
  · rw [if_pos m2]; exact fun _ => .good m2
  rw [if_neg m2]
  by_cases m3 : i.mark = .success
  · rw [if_pos m3]; exact fun _ => .mark m3
  rw [if_neg m3]
  have hM := hd m1 m2 m3
  by_cases d1 : i.del = .health
  · rw [if_pos d1]; exact fun _ => .health (.inl ⟨hM, d1⟩)
  rw [if_neg d1]
  by_cases d2 : i.del = .manual
  · rw [if_pos d2]; exact fun _ => .manual ⟨hM, d2⟩
  rw [if_neg d2]
  by_cases d3 : i.del = .dupe
  · rw [if_pos d3]; exact fun _ => .dupe ⟨hM, d3⟩
  rw [if_neg d3]
  by_cases d4 : i.del = .bad
  · rw [if_pos d4]; exact fun _ => .bad (.inr ⟨hM, d4⟩)
  rw [if_neg d4]
  by_cases d5 : i.del = .good
  · rw [if_pos d5]; exact fun _ => .delGood ⟨hM, d5⟩
  rw [if_neg d5]
  by_cases d6 : i.del = .copy
  · rw [if_pos d6]; exact fun _ => .copy ⟨hM, d6⟩
  rw [if_neg d6]
  by_cases d7 : i.del = .scan
  · rw [if_pos d7]; exact fun _ => .scan ⟨hM, d7⟩
  rw [if_neg d7]
  have hP : Plain i := ⟨hM, hdd d1 d2 d3 d4 d5 d6 d7⟩
  by_cases p1 : i.par = .failure
  · rw [if_pos p1]; exact fun _ => .par ⟨hP, p1⟩
  rw [if_neg p1]
  by_cases p2 : i.unpack = .failure
  · rw [if_pos p2]; exact fun _ => .unpack ⟨hP, p1, p2⟩
  rw [if_neg p2]
  by_cases p3 : i.move = .failure
  · rw [if_pos p3]; exact fun _ => .move ⟨hP, p3⟩
  rw [if_neg p3]
  have hN : NoError i := ⟨p1, p2, p3⟩
  by_cases p4 : i.par = .manual
  · rw [if_pos p4]; exact fun _ => .damaged ⟨hP, hN, p4⟩
  rw [if_neg p4]
  by_cases p5 : i.par = .repairPossible
  · rw [if_pos p5]; exact fun _ => .repairable ⟨hP, hN, p5⟩
  rw [if_neg p5]
  by_cases q : untouched i ∧ h < c
  · rw [if_pos q]; exact fun _ => .health (.inr ⟨hP, hun.1 q.1, hl.1 q.2⟩)
  rw [if_neg q]
  by_cases q : untouched i ∧ h < 1000 ∧ h ≥ c
  · rw [if_pos q]; exact fun _ => .warnHealth ⟨hP, hN, hun.1 q.1, fun w => by have := hl.2 w; omega, fun w => by have := hx'.2 w; omega⟩
  rw [if_neg q]
  by_cases q : untouched i ∧ x ≠ .failure ∧ h = 1000
  · rw [if_pos q]; exact fun _ => .okHealth ⟨hP, hN, hun.1 q.1, hx'.1 q.2.2⟩
  rw [if_neg q]
  by_cases q : i.unpack = .space
  · rw [if_pos q]; exact fun _ => .space ⟨hP, hN, q⟩
  rw [if_neg q]
  by_cases q : i.unpack = .password
  · rw [if_pos q]; exact fun _ => .password ⟨hP, hN, q⟩
  rw [if_neg q]
  by_cases q : (i.unpack = .success ∨ ((i.unpack = .none ∨ i.unpack = .skipped) ∧ i.par = .success)) ∧ x = .success
  · rw [if_pos q]; exact fun _ => .all ⟨hP, hN, q.1.imp id (·.2), (x2.1 q.2).2, (x2.1 q.2).1⟩
  rw [if_neg q]
  by_cases q : i.unpack = .success ∧ x = .none
  · rw [if_pos q]; exact fun _ => .okUnpack ⟨hP, hN, q.1, (x3.1 q.2).2, (x3.1 q.2).1⟩
  rw [if_neg q]
  by_cases q : i.par = .success ∧ x = .none
  · rw [if_pos q]; exact fun _ => .okPar ⟨hP, hN, q.1, (x3.1 q.2).2, (x3.1 q.2).1⟩
  rw [if_neg q]
  by_cases q : x = .failure
  · rw [if_pos q]; exact fun _ => .script ⟨hP, hN, x1.1 q⟩
  rw [if_neg q]
  exact fun n => absurd rfl n

/-- **C131.** What the scripts see and what is shown afterwards: the same result, except that a success becomes a warning if a script
failed and the user did not mark the download. -/
theorem scripts_see {i : Info} {a b : Bytes} (hs : Proper i) (hu : i.isUrl = false) (ha : textStatus i true = some a)
    (hb : textStatus i false = some b) :
    beforeSlash b = if beforeSlash a = lit "SUCCESS" ∧ ScriptFailed i ∧ i.mark = .none then lit "WARNING" else beforeSlash a := by
  obtain ⟨h, hh, _, _, _⟩ := health_bounds hs
  obtain ⟨c, hc, _, _⟩ := critical_bounds hs false
  obtain ⟨a', ea, -, wa⟩ := status_res hs hu true hh hc
  obtain ⟨b', eb, -, wb⟩ := status_res hs hu false hh hc
  rw [ha] at ea; cases ea
  rw [hb] at eb; cases eb
  rw [wa, wb, show lit "SUCCESS" = word .success from rfl, show lit "WARNING" = word .warning from rfl]
  simp only [show ∀ r r' : Res, (word r = word r') = (r = r') from fun r r' => propext ⟨word_inj, fun e => by rw [e]⟩]
  rw [← apply_ite word]
  congr 1
  unfold ScriptFailed
  simp only [Bool.not_true, Bool.false_and, Bool.not_false, Bool.true_and]
  generalize decide (h < c) = lost
  generalize decide (h = 1000) = complete
  clear wa wb ha hb hs hh hc
  obtain ⟨isUrl, mark, del, par, unpack, move, url, scripts, n⟩ := i
  dsimp only [res, untouched]
  by_cases hf : Script.failure ∈ scripts <;> cases mark <;> simp [hf]
  cases del <;> simp
  by_cases hm : move = .failure <;> cases par <;> cases unpack <;> simp [hm] <;> cases lost <;> cases complete <;> simp

/-- **C131.** The status of a link which was not fetched. -/
theorem link_status {i : Info} (hu : i.isUrl = true) (ign : Bool) : textStatus i ign = some
    (if i.del = .manual then lit "DELETED/MANUAL" else if i.del = .dupe then lit "DELETED/DUPE" else if i.del = .good then lit "DELETED/GOOD"
     else if i.url = .failed then lit "FAILURE/FETCH" else if i.url = .scanSkipped then lit "WARNING/SKIPPED"
     else if i.url = .scanFailed then lit "FAILURE/SCAN" else lit "FAILURE/INTERNAL_ERROR") := by
  unfold textStatus urlStatus
  rw [if_pos hu]
  cases i.url <;> simp

/-! ### Duplicates and hidden entries -/

/-- The download counts as lost when duplicates are compared: critical health 85% if there are no par2-files. -/
def LostForDupes (i : Info) : Prop := ∃ h c, calcHealth i.n = some h ∧ calcCriticalHealth i.n true = some c ∧ h < c

/-- The link of the download was fetched, or it did not come from one. -/
def LinkOk (i : Info) : Prop := i.url ≠ .failed ∧ i.url ≠ .scanSkipped ∧ i.url ≠ .scanFailed

/-- **C131.** When a download counts as a success in comparison with its duplicates. -/
theorem counts_success {i : Info} (hs : Proper i) : ∃ b, isDupeSuccess i = some b ∧
    (b = true ↔ i.mark = .good ∨ i.mark = .success ∨ (Plain i ∧ i.par ≠ .failure ∧ i.unpack ≠ .failure ∧ i.unpack ≠ .password ∧ LinkOk i ∧
      ¬ (i.par = .skipped ∧ i.unpack = .skipped ∧ LostForDupes i))) := by
  obtain ⟨h, hh, _, _, _⟩ := health_bounds hs
  obtain ⟨c, hc, _, _⟩ := critical_bounds hs true
  have hl : h < c ↔ LostForDupes i := by
    constructor
    · exact fun hl => ⟨h, c, hh, hc, hl⟩
    · rintro ⟨h', c', e1, e2, hl⟩
      rw [hh] at e1; rw [hc] at e2; cases e1; cases e2; exact hl
  unfold isDupeSuccess
  rw [hh, hc]
  dsimp only [bind, Option.bind, pure]
  refine ⟨_, rfl, ?_⟩
  rw [← hl]
  unfold Plain LinkOk
  obtain ⟨isUrl, mark, del, par, unpack, move, url, scripts, n⟩ := i
  dsimp only
  simp only [Bool.not_eq_true', decide_eq_false_iff_not]
  generalize (h < c) = A
  cases mark <;> simp
  cases del <;> simp
  intro _ _ _
  simp only [and_assoc]

/-- **C131.** What is shown as a success, counts as a success for duplicates and stays a success when hidden; what is shown as deleted,
doesn't and stays deleted. -/
theorem hidden_keeps {i : Info} {st : Bytes} (hs : Proper i) (hu : i.isUrl = false) (hk : LinkOk i) (he : textStatus i false = some st) :
    ∃ b d, isDupeSuccess i = some b ∧ hide i = some d ∧
      (beforeSlash st = lit "SUCCESS" → b = true ∧ beforeSlash (hiddenText d) = lit "SUCCESS") ∧
      (beforeSlash st = lit "DELETED" → b = false ∧ beforeSlash (hiddenText d) = lit "DELETED") ∧
      (¬ Plain i → beforeSlash (hiddenText d) = beforeSlash st) := by
  obtain ⟨b, eb, hb⟩ := counts_success hs
  have h1 := shows_success hs hu false he
  have h2 := shows_deleted hs hu false he
  have h3 := shows_failure hs hu false he
  have hlost : LostForDupes i → ¬ Complete i := by
    rintro ⟨h, c, e1, e2, hl⟩ hco
    obtain ⟨h', e1', _, _, hx⟩ := health_bounds hs
    obtain ⟨c', e2', _, b2⟩ := critical_bounds hs true
    rw [e1] at e1'; rw [e2] at e2'; cases e1'; cases e2'
    have := hx.2 hco
    omega
  have hbs : beforeSlash st = lit "SUCCESS" → b = true := by
    intro q
    rw [hb]
    rcases h1.1 q with q | q | ⟨q1, q2, q3, q4, q5⟩
    · exact .inl q
    · exact .inr (.inl q)
    · refine .inr (.inr ⟨q1, q2.1, q2.2.1, fun w => q3 (.inr (.inr (.inr w))), hk, ?_⟩)
      rintro ⟨w1, w2, w3⟩
      exact hlost w3 (q5 ⟨.inr w1, .inr w2⟩)
  have hbd : i.del ≠ .none → i.mark = .none → b = false := by
    intro q1 q2
    cases b with
    | false => rfl
    | true =>
      rcases hb.1 rfl with w | w | w
      · rw [q2] at w; cases w
      · rw [q2] at w; cases w
      · exact absurd w.1.2 q1
  unfold hide
  rw [eb]
  cases hm : i.mark with
  | bad =>
    refine ⟨b, .bad, rfl, rfl, ?_, ?_, ?_⟩
    · intro q; rw [h3.2 (.inl hm)] at q; exact absurd q (by decide +kernel)
    · intro q; rw [h3.2 (.inl hm)] at q; exact absurd q (by decide +kernel)
    · intro _; rw [h3.2 (.inl hm)]; decide +kernel
  | good =>
    have hS := h1.2 (.inl hm)
    refine ⟨b, .good, rfl, rfl, fun q => ⟨hbs q, by decide +kernel⟩, ?_, ?_⟩
    · intro q; rw [hS] at q; exact absurd q (by decide +kernel)
    · intro _; rw [hS]; decide +kernel
  | success =>
    have hS := h1.2 (.inr (.inl hm))
    refine ⟨b, .success, rfl, rfl, fun q => ⟨hbs q, by decide +kernel⟩, ?_, ?_⟩
    · intro q; rw [hS] at q; exact absurd q (by decide +kernel)
    · intro _; rw [hS]; decide +kernel
  | none =>
    cases hd : i.del with
    | none =>
      refine ⟨b, if b then .success else .failed, rfl, rfl, ?_, ?_, ?_⟩
      · intro q; rw [hbs q]; exact ⟨rfl, by decide +kernel⟩
      · intro q; rcases (h2.1 q).2 with w | w | w | w <;> rw [hd] at w <;> cases w
      · intro q; exact absurd ⟨hm, hd⟩ q
    | health =>
      have hS := h3.2 (.inr (.inl ⟨hm, .inl hd⟩))
      have hbf := hbd (by rw [hd]; decide) hm
      subst hbf
      refine ⟨false, .failed, rfl, rfl, ?_, fun _ => ⟨rfl, ?_⟩, fun _ => by rw [hS]; decide +kernel⟩
      · intro q; rw [hS] at q; exact absurd q (by decide +kernel)
      · rename_i q; rw [hS] at q; exact absurd q (by decide +kernel)
    | bad =>
      have hS := h3.2 (.inr (.inl ⟨hm, .inr (.inl hd)⟩))
      have hbf := hbd (by rw [hd]; decide) hm
      subst hbf
      refine ⟨false, .failed, rfl, rfl, ?_, fun _ => ⟨rfl, ?_⟩, fun _ => by rw [hS]; decide +kernel⟩
      · intro q; rw [hS] at q; exact absurd q (by decide +kernel)
      · rename_i q; rw [hS] at q; exact absurd q (by decide +kernel)
    | scan =>
      have hS := h3.2 (.inr (.inl ⟨hm, .inr (.inr hd)⟩))
      have hbf := hbd (by rw [hd]; decide) hm
      subst hbf
      refine ⟨false, .failed, rfl, rfl, ?_, fun _ => ⟨rfl, ?_⟩, fun _ => by rw [hS]; decide +kernel⟩
      · intro q; rw [hS] at q; exact absurd q (by decide +kernel)
      · rename_i q; rw [hS] at q; exact absurd q (by decide +kernel)
    | manual =>
      have hS := h2.2 ⟨hm, .inl hd⟩
      refine ⟨b, .deleted, rfl, rfl, ?_, fun _ => ⟨hbd (by rw [hd]; decide) hm, by decide +kernel⟩, fun _ => by rw [hS]; decide +kernel⟩
      intro q; rw [hS] at q; exact absurd q (by decide +kernel)
    | dupe =>
      have hS := h2.2 ⟨hm, .inr (.inl hd)⟩
      refine ⟨b, .dupe, rfl, rfl, ?_, fun _ => ⟨hbd (by rw [hd]; decide) hm, by decide +kernel⟩, fun _ => by rw [hS]; decide +kernel⟩
      intro q; rw [hS] at q; exact absurd q (by decide +kernel)
    | good =>
      have hS := h2.2 ⟨hm, .inr (.inr (.inl hd))⟩
      refine ⟨b, .deleted, rfl, rfl, ?_, fun _ => ⟨hbd (by rw [hd]; decide) hm, by decide +kernel⟩, fun _ => by rw [hS]; decide +kernel⟩
      intro q; rw [hS] at q; exact absurd q (by decide +kernel)
    | copy =>
      have hS := h2.2 ⟨hm, .inr (.inr (.inr hd))⟩
      refine ⟨b, .deleted, rfl, rfl, ?_, fun _ => ⟨hbd (by rw [hd]; decide) hm, by decide +kernel⟩, fun _ => by rw [hS]; decide +kernel⟩
      intro q; rw [hS] at q; exact absurd q (by decide +kernel)

/-- **C131, refuted part.** A download which could not be moved to its destination is shown as a failure, but counts as a success for its
duplicates, and once hidden it is shown as a success. -/
theorem move_failure_counts {i : Info} (hs : Proper i) (hu : i.isUrl = false) (hp : Plain i) (hk : LinkOk i) (hm : i.move = .failure)
    (h1 : i.par = .success) (h2 : i.unpack = .success ∨ i.unpack = .skipped) :
    textStatus i false = some (lit "FAILURE/MOVE") ∧ isDupeSuccess i = some true ∧ (hide i).map hiddenText = some (lit "SUCCESS/HIDDEN") := by
  have hb : isDupeSuccess i = some true := by
    obtain ⟨b, eb, hb⟩ := counts_success hs
    rw [eb, hb.2 (.inr (.inr ⟨hp, by rw [h1]; decide, ?_, ?_, hk, ?_⟩))]
    · rcases h2 with h | h <;> rw [h] <;> decide
    · rcases h2 with h | h <;> rw [h] <;> decide
    · rw [h1]; rintro ⟨w, _⟩; cases w
  refine ⟨?_, hb, ?_⟩
  · obtain ⟨h, hh, _, _, _⟩ := health_bounds hs
    obtain ⟨c, hc, _, _⟩ := critical_bounds hs false
    unfold textStatus nzbStatus
    rw [hh, hc, hu, hp.1, hp.2, hm, h1]
    rcases h2 with h2 | h2 <;> rw [h2] <;> rfl
  · unfold hide
    rw [hb, hp.1, hp.2]
    rfl

/-- **C131, refuted part.** A download without par2-files which lost up to 15% of its data is shown as a failure, but counts as a success
for its duplicates (no other post is fetched instead), and once hidden it is shown as a success. -/
theorem health_failure_counts {i : Info} (hs : Proper i) (hu : i.isUrl = false) (hp : Plain i) (hk : LinkOk i) (h0 : 0 < i.n.size)
    (hn : i.n.parSize = 0) (hl : 0 < i.n.curFailed) (hl' : i.n.curFailed * 1000 ≤ i.n.size * 150)
    (h1 : i.par = .skipped) (h2 : i.unpack = .skipped) (hm : i.move ≠ .failure) :
    textStatus i false = some (lit "FAILURE/HEALTH") ∧ isDupeSuccess i = some true ∧
      (hide i).map hiddenText = some (lit "SUCCESS/HIDDEN") := by
  have hq : i.n.parCurFailed = 0 := by obtain ⟨⟨p1, p2⟩, _, _⟩ := hs; omega
  have hc : ∀ al, calcCriticalHealth i.n al = some (if al then 850 else 1000) := by
    intro al
    obtain ⟨_, ⟨o1, o2⟩, sm⟩ := hs
    unfold calcCriticalHealth
    rw [if_neg (by omega), if_neg (by omega), hn, hq, int64_of (by decide) (by decide)]
    dsimp only [bind, Option.bind]
    rw [int64_of (by omega) (by omega)]
    dsimp only
    rw [int64_of (by omega) (by omega)]
    dsimp only
    rw [if_neg (by omega), show ((i.n.size - (0 - 0) * 2) * 1000).tdiv (i.n.size - (0 - 0)) = 1000 from by
      rw [show (i.n.size - (0 - 0) * 2) * 1000 = (i.n.size - (0 - 0)) * 1000 from by omega]
      exact Int.mul_tdiv_cancel_left _ (by omega)]
    cases al <;> simp [toInt, Int.bmod] <;> omega
  obtain ⟨h, hh, b1, b2, hx⟩ := health_bounds hs
  have hne : h ≠ 1000 := fun w => by have := hx.1 w; omega
  have h850 : 850 ≤ h := by
    have := health_is_share hs
    rw [hh, if_neg (by omega)] at this
    have := Option.some.inj this
    rw [this, goodShare, hn, hq]
    apply Int.le_ediv_of_mul_le (by omega)
    omega
  have hb : isDupeSuccess i = some true := by
    obtain ⟨b, eb, hb⟩ := counts_success hs
    rw [eb, hb.2 (.inr (.inr ⟨hp, by rw [h1]; decide, by rw [h2]; decide, by rw [h2]; decide, hk, ?_⟩))]
    rintro ⟨_, _, h', c', e1, e2, hlt⟩
    rw [hh] at e1; rw [hc] at e2; cases e1; cases e2
    simp at hlt; omega
  refine ⟨?_, hb, ?_⟩
  · unfold textStatus nzbStatus
    rw [hh, hc, hu, hp.1, hp.2, h1, h2]
    dsimp only [bind, Option.bind, pure]
    simp only [reduceCtorEq, if_false, hm, Bool.false_eq_true, untouched, h1, h2]
    rw [if_pos ⟨by decide, by omega⟩]
  · unfold hide
    rw [hb, hp.1, hp.2]
    rfl

/-! ### Scripts and feeds -/

/-- **C131.** The variables of a post-processing script: the first part of the status is one of the four words; par-check and unpacking are
given with their codes, and a download which was deleted or marked as bad always has the code of a failed par-check. -/
theorem script_sees {i : Info} (hs : Proper i) (hu : i.isUrl = false) : ∃ e r, env i = some e ∧ textStatus i true = some e.status ∧
    e.total = word r ∧ (∃ d, e.status = word r ++ 47 :: d) ∧
    (e.script = lit "FAILURE" ↔ ScriptFailed i) ∧ (e.script = lit "NONE" ↔ Script.failure ∉ i.scripts ∧ Script.success ∉ i.scripts) ∧
    (i.del ≠ .none ∨ i.mark = .bad → e.par = 1) ∧
    (i.del = .none → i.mark ≠ .bad → (e.par = 1 ↔ i.par = .failure) ∧ (e.par = 2 ↔ i.par = .success) ∧ (e.par = 3 ↔ i.par = .repairPossible) ∧
      (e.par = 4 ↔ i.par = .manual)) ∧
    (e.unpack = 1 ↔ i.unpack = .failure) ∧ (e.unpack = 2 ↔ i.unpack = .success) ∧ (e.unpack = 3 ↔ i.unpack = .space) ∧
    (e.unpack = 4 ↔ i.unpack = .password) ∧ (e.healthDeleted = 1 ↔ i.del = .health) := by
  obtain ⟨st, r, e, w, -⟩ := one_of_four hs hu true
  unfold env
  rw [e]
  refine ⟨_, r, rfl, rfl, w, ?_, ?_, ?_, ?_, ?_, ?_, ?_, ?_, ?_, ?_⟩
  · dsimp only
    unfold beforeSlash at w
    have hd := List.takeWhile_append_dropWhile (p := fun x : UInt8 => decide (x ≠ 47)) (l := st)
    cases hr : st.dropWhile (fun x : UInt8 => decide (x ≠ 47)) with
    | nil =>
      exfalso
      rw [hr, List.append_nil, w] at hd
      obtain ⟨h, hh, _⟩ := health_bounds hs
      obtain ⟨c, hc, _⟩ := critical_bounds hs false
      unfold textStatus nzbStatus at e
      rw [if_neg (by simp [hu]), hh, hc] at e
      dsimp only [bind, Option.bind, pure] at e
      have e := Option.some.inj e
      have key : ∀ {p : Prop} [Decidable p] {a b : Bytes}, (47 : UInt8) ∈ a → (47 : UInt8) ∈ b → (47 : UInt8) ∈ (if p then a else b) := by
        intro p _ a b h1 h2; split <;> assumption
      have hmem : (47 : UInt8) ∈ st := by
        rw [← e]
        repeat' (apply key)
        all_goals decide +kernel
      rw [← hd] at hmem
      revert hmem
      cases r <;> decide +kernel
    | cons x l =>
      have hx : x = 47 := by
        have := List.head_dropWhile_not (fun x : UInt8 => decide (x ≠ 47)) (l := st) (by rw [hr]; simp)
        simp only [hr, List.head_cons, decide_eq_false_iff_not, ne_eq] at this
        exact Classical.byContradiction this
      rw [hr, w, hx] at hd
      exact ⟨l, hd.symm⟩
  · dsimp only
    rw [scripts_total]
    unfold ScriptFailed
    by_cases h1 : Script.failure ∈ i.scripts <;> by_cases h2 : Script.success ∈ i.scripts <;> simp [h1, h2, scriptName] <;> decide +kernel
  · dsimp only
    rw [scripts_total]
    by_cases h1 : Script.failure ∈ i.scripts <;> by_cases h2 : Script.success ∈ i.scripts <;> simp [h1, h2, scriptName] <;> decide +kernel
  · intro h; dsimp only; rw [if_pos h]; rfl
  · intro h1 h2; dsimp only; rw [if_neg (by simp [h1, h2])]; cases i.par <;> decide
  · dsimp only; cases i.unpack <;> decide
  · dsimp only; cases i.unpack <;> decide
  · dsimp only; cases i.unpack <;> decide
  · dsimp only; cases i.unpack <;> decide
  · dsimp only; cases i.del <;> decide

/-- The entry of the history has this name or key. -/
def Hist.Same (name key : String) : Hist → Prop
  | .item n k i => i.isUrl = false ∧ Dupe.sameNameOrKey name key n k = true
  | .hidden n k _ => Dupe.sameNameOrKey name key n k = true

/-- The result of an entry: the first word of its status without the scripts', or of the hidden record. -/
def Hist.Result (w : Bytes) : Hist → Prop
  | .item _ _ i => ∃ st, textStatus i true = some st ∧ beforeSlash st = w
  | .hidden _ _ s => beforeSlash (hiddenText s) = w ∧ s ≠ .undefined

/-- Entries with proper sizes. -/
def Hist.Proper : Hist → Prop
  | .item _ _ i => Status.Proper i
  | .hidden _ _ _ => True

theorem begins_word {st : Bytes} {r r' : Res} (h : beforeSlash st = word r) : begins st (word r') = decide (r = r') := by
  have hd := List.takeWhile_append_dropWhile (p := fun x : UInt8 => decide (x ≠ 47)) (l := st)
  rw [show st.takeWhile (fun x : UInt8 => decide (x ≠ 47)) = word r from h] at hd
  unfold begins
  have hl : ∀ r, (word r).length = 7 := by intro r; cases r <;> decide +kernel
  rw [← hd, List.take_append_of_le_length (by rw [hl]; exact Nat.le_refl _),
    List.take_of_length_le (by rw [hl]; exact Nat.le_refl _), List.take_of_length_le (by rw [hl]; exact Nat.le_refl _)]
  cases r <;> cases r' <;> decide +kernel

theorem hist_step {name key : String} {f : Flags} {h : Hist} (hp : h.Proper) : ∃ f', histFlags name key f h = some f' ∧
    (f'.success = true ↔ f.success = true ∨ (h.Same name key ∧ h.Result (lit "SUCCESS"))) ∧
    (f'.failure = true ↔ f.failure = true ∨ (h.Same name key ∧ h.Result (lit "FAILURE"))) ∧
    (f'.warning = true ↔ f.warning = true ∨ (h.Same name key ∧ h.Result (lit "WARNING"))) ∧
    f'.queued = f.queued ∧ f'.downloading = f.downloading := by
  cases h with
  | item n k i =>
    unfold histFlags
    dsimp only [Hist.Same, Hist.Result]
    by_cases hq : i.isUrl = false ∧ Dupe.sameNameOrKey name key n k = true
    · rw [if_pos hq]
      obtain ⟨st, r, e, w, -⟩ := one_of_four hp hq.1 true
      rw [e]
      refine ⟨_, rfl, ?_⟩
      rw [show lit "SUCCESS" = word .success from rfl, show lit "FAILURE" = word .failure from rfl, show lit "WARNING" = word .warning from rfl]
      dsimp only
      rw [begins_word w, begins_word w, begins_word w]
      have hex : ∀ r', (∃ st', some st = some st' ∧ beforeSlash st' = word r') ↔ r = r' := by
        intro r'
        constructor
        · rintro ⟨st', e1, e2⟩; cases e1; exact (word_eq w).1 e2
        · intro q; exact ⟨st, rfl, (word_eq w).2 q⟩
      rw [hex, hex, hex]
      cases r <;> simp [hq]
    · rw [if_neg hq]
      exact ⟨f, rfl, by simp [hq]⟩
  | hidden n k s =>
    unfold histFlags
    dsimp only [Hist.Same, Hist.Result]
    by_cases hq : Dupe.sameNameOrKey name key n k = true
    · rw [if_pos hq]
      refine ⟨_, rfl, ?_⟩
      rw [show lit "SUCCESS" = word .success from rfl, show lit "FAILURE" = word .failure from rfl, show lit "WARNING" = word .warning from rfl]
      cases s
      case undefined => simp
      case success => dsimp only [hiddenText]; rw [word_eq (r := .success) ts_shidden, word_eq (r := .success) ts_shidden, word_eq (r := .success) ts_shidden]; simp [hq]
      case failed => dsimp only [hiddenText]; rw [word_eq (r := .failure) ts_fhidden, word_eq (r := .failure) ts_fhidden, word_eq (r := .failure) ts_fhidden]; simp [hq]
      case deleted => dsimp only [hiddenText]; rw [word_eq (r := .deleted) ts_manual, word_eq (r := .deleted) ts_manual, word_eq (r := .deleted) ts_manual]; simp
      case dupe => dsimp only [hiddenText]; rw [word_eq (r := .deleted) ts_dupe, word_eq (r := .deleted) ts_dupe, word_eq (r := .deleted) ts_dupe]; simp
      case bad => dsimp only [hiddenText]; rw [word_eq (r := .failure) ts_bad, word_eq (r := .failure) ts_bad, word_eq (r := .failure) ts_bad]; simp [hq]
      case good => dsimp only [hiddenText]; rw [word_eq (r := .success) ts_good, word_eq (r := .success) ts_good, word_eq (r := .success) ts_good]; simp [hq]
    · rw [if_neg hq]
      exact ⟨f, rfl, by simp [hq]⟩

theorem hist_all {name key : String} {l : List Hist} (hp : ∀ h ∈ l, h.Proper) (f : Flags) : ∃ f', allHist name key f l = some f' ∧
    (f'.success = true ↔ f.success = true ∨ ∃ h ∈ l, h.Same name key ∧ h.Result (lit "SUCCESS")) ∧
    (f'.failure = true ↔ f.failure = true ∨ ∃ h ∈ l, h.Same name key ∧ h.Result (lit "FAILURE")) ∧
    (f'.warning = true ↔ f.warning = true ∨ ∃ h ∈ l, h.Same name key ∧ h.Result (lit "WARNING")) ∧
    f'.queued = f.queued ∧ f'.downloading = f.downloading := by
  induction l generalizing f with
  | nil => exact ⟨f, rfl, by simp⟩
  | cons h l ih =>
    obtain ⟨f1, e1, a1, a2, a3, a4, a5⟩ := hist_step (name := name) (key := key) (f := f) (hp h (List.mem_cons_self ..))
    obtain ⟨f2, e2, b1, b2, b3, b4, b5⟩ := ih (fun x hx => hp x (List.mem_cons_of_mem _ hx)) f1
    refine ⟨f2, by unfold allHist; rw [e1]; exact e2, ?_, ?_, ?_, by rw [b4, a4], by rw [b5, a5]⟩
    · rw [b1, a1]; simp [or_assoc]
    · rw [b2, a2]; simp [or_assoc]
    · rw [b3, a3]; simp [or_assoc]

theorem queue_all {name key : String} (l : List Queued) (f : Flags) :
    ((queueFlags name key l f).queued = true ↔ f.queued = true ∨ ∃ q ∈ l, Dupe.sameNameOrKey name key q.name q.key = true ∧ ¬ q.articles > 0) ∧
    ((queueFlags name key l f).downloading = true ↔
      f.downloading = true ∨ ∃ q ∈ l, Dupe.sameNameOrKey name key q.name q.key = true ∧ q.articles > 0) ∧
    (queueFlags name key l f).success = f.success ∧ (queueFlags name key l f).failure = f.failure ∧
    (queueFlags name key l f).warning = f.warning := by
  unfold queueFlags
  induction l generalizing f with
  | nil => simp
  | cons q l ih =>
    rw [List.foldl_cons]
    obtain ⟨b1, b2, b3, b4, b5⟩ := ih (if Dupe.sameNameOrKey name key q.name q.key = true then
      (if q.articles > 0 then { f with downloading := true } else { f with queued := true }) else f)
    rw [b1, b2, b3, b4, b5]
    by_cases h2 : q.articles > 0
    · have h3 : ¬ q.articles ≤ 0 := by omega
      by_cases h1 : Dupe.sameNameOrKey name key q.name q.key = true <;> simp [h1, h2, h3, or_assoc]
    · have h3 : q.articles ≤ 0 := by omega
      by_cases h1 : Dupe.sameNameOrKey name key q.name q.key = true <;> simp [h1, h2, h3, or_assoc]

/-- **C131.** What a filter of a feed learns about the duplicates of an item (`dupestatus`): exactly whether there are entries with the same
name or key waiting or being downloaded, and whether there are successes, failures and warnings in the history; deleted downloads and links
count for nothing. -/
theorem dupes_seen {name key : String} {queue : List Queued} {history : List Hist} (hp : ∀ h ∈ history, h.Proper) :
    ∃ f, dupeStatus name key queue history = some f ∧
      (f.queued = true ↔ ∃ q ∈ queue, Dupe.sameNameOrKey name key q.name q.key = true ∧ ¬ q.articles > 0) ∧
      (f.downloading = true ↔ ∃ q ∈ queue, Dupe.sameNameOrKey name key q.name q.key = true ∧ q.articles > 0) ∧
      (f.success = true ↔ ∃ h ∈ history, h.Same name key ∧ h.Result (lit "SUCCESS")) ∧
      (f.failure = true ↔ ∃ h ∈ history, h.Same name key ∧ h.Result (lit "FAILURE")) ∧
      (f.warning = true ↔ ∃ h ∈ history, h.Same name key ∧ h.Result (lit "WARNING")) := by
  obtain ⟨f, e, b1, b2, b3, b4, b5⟩ := hist_all (name := name) (key := key) hp (queueFlags name key queue ⟨false, false, false, false, false⟩)
  obtain ⟨a1, a2, a3, a4, a5⟩ := queue_all (name := name) (key := key) queue ⟨false, false, false, false, false⟩
  refine ⟨f, e, ?_, ?_, ?_, ?_, ?_⟩
  · rw [b4, a1]; simp
  · rw [b5, a2]; simp
  · rw [b1, a3]; simp
  · rw [b2, a4]; simp
  · rw [b3, a5]; simp

/-! ### Examples -/

/-- A download of 1000 bytes, 200 of them in par2-files, `failed` lost. -/
def sample (failed : Int) (par : Par) (unpack : Unpack) (scripts : List Script) : Info :=
  { isUrl := false, mark := .none, del := .none, par := par, unpack := unpack, move := .none, url := .none, scripts := scripts
    n := { Nzb.new 1 with size := 1000, parSize := 200, curFailed := failed } }

theorem sample_proper : Proper (sample 95 .success .success [.success]) ∧ Proper (sample 0 .skipped .skipped []) := by
  constructor <;> constructor <;> decide

example : textStatus (sample 95 .success .success [.success]) false = some (lit "SUCCESS/ALL") ∧
    textStatus (sample 95 .success .success [.success, .failure]) false = some (lit "WARNING/SCRIPT") ∧
    textStatus (sample 95 .success .success []) false = some (lit "SUCCESS/UNPACK") ∧
    textStatus (sample 95 .success .skipped []) false = some (lit "SUCCESS/PAR") ∧
    textStatus (sample 0 .skipped .skipped []) false = some (lit "SUCCESS/HEALTH") ∧
    textStatus (sample 95 .skipped .skipped []) false = some (lit "WARNING/HEALTH") ∧
    textStatus (sample 300 .skipped .skipped []) false = some (lit "FAILURE/HEALTH") ∧
    textStatus (sample 300 .success .password []) false = some (lit "WARNING/PASSWORD") := by decide +kernel

/-- The hypotheses of `move_failure_counts` and `health_failure_counts`. -/
example : textStatus { sample 0 .success .success [] with move := .failure } false = some (lit "FAILURE/MOVE") ∧
    isDupeSuccess { sample 0 .success .success [] with move := .failure } = some true := by decide +kernel

example : let i := { sample 0 .skipped .skipped [] with n := { Nzb.new 1 with size := 1000, curFailed := 100 } }
    Proper i ∧ Plain i ∧ LinkOk i ∧ 0 < i.n.size ∧ i.n.parSize = 0 ∧ 0 < i.n.curFailed ∧ i.n.curFailed * 1000 ≤ i.n.size * 150 := by
  refine ⟨⟨by decide, by decide, by decide⟩, ⟨rfl, rfl⟩, ⟨by decide, by decide, by decide⟩, ?_⟩
  decide +kernel

example : dupeStatus "a" "" [⟨"a", "", 0⟩] [.item "A" "" (sample 0 .skipped .skipped []), .hidden "a" "" .failed] =
    some ⟨true, false, true, true, false⟩ := by decide +kernel

end Verif.Status
