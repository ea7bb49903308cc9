import Verif.DirectUnpackInv
import Verif.QueueScriptProps
import Verif.RarRenameNames
import Verif.UnpackFiles
/-
Unpacking during the download (C122). All theorems are about every sequence of steps of the two threads and of unrar from the start of a job, for
every contents of the directory of the download and of the directory `_unpack`.
-/
namespace Verif.DirectUnpack
open CStr
open Rpc (eqNoCase)

/-! ### Success -/

/-- Success is shown only if unrar was started and every time ended with code 0 after it has reported that all is OK, the download is complete,
no file with failed articles was reported, nothing has stopped the job and unrar was not terminated. The names of the archives unrar has read
are then what post-processing gets. -/
theorem success_sound {cmdOk : Bool} {disk left : List Bytes} {ops : List Op} {s : S} (h : steps cmdOk (init disk left) ops = some s)
    (hs : s.status = .success) :
    s.ran ≠ [] ∧ (∀ r ∈ s.ran, r.2 = true) ∧ s.completed = true ∧ s.failedSeen = false ∧ s.stopped = false ∧ s.terminated = false ∧
      s.pc = .exited ∧ s.postExtracted = s.extracted := by
  have hi := inv_steps ops (inv_init disk left) h
  obtain ⟨h1, h2, h3, h4, h5, h6⟩ := hi.succ hs
  obtain ⟨_, h7, h8⟩ := hi.ok1 h3
  have f1 : s.failedSeen = false := by
    cases hq : s.failedSeen with
    | false => rfl
    | true => rw [hi.fail hq] at h4; cases h4
  have f2 : s.terminated = false := by
    cases hq : s.terminated with
    | false => rfl
    | true => rw [hi.term hq] at h4; cases h4
  exact ⟨h7, h8, h5, f1, h4, f2, h1, h6⟩

theorem addMessage_ran (s : S) (a t : Bytes) : (addMessage s a t).ran = s.ran := by
  unfold addMessage
  split
  · unfold checkDir; split <;> rfl
  · obtain ⟨x, hx⟩ := noteVolume_eq t { s with pc := .reading a }
    rw [hx]
    unfold checkDamage checkAllOk stopFound
    split
    · split <;> rfl
    · rfl

theorem file_ran (s : S) (g : Bytes) : (fileDownloaded s g).ran = s.ran := by
  unfold fileDownloaded wake answer
  dsimp only
  split
  · split
    · split <;> rfl
    · rfl
  · rfl

theorem nzb_ran (s : S) : (nzbDownloaded s).ran = s.ran := by
  unfold nzbDownloaded
  dsimp only
  split <;> rfl

/-- What a good end of unrar is. -/
theorem ran_step {cmdOk : Bool} {s s' : S} {op : Op} (h : step cmdOk s op = some s') (a : Bytes) (hr : s'.ran = s.ran ++ [(a, true)]) :
    op = .ends 0 ∧ s.pc = .reading a ∧ s.allOk = true ∧ s.terminated = false := by
  have ne : s.ran ≠ s.ran ++ [(a, true)] := by
    intro q
    have := congrArg List.length q
    rw [List.length_append] at this
    exact absurd this (Nat.ne_of_lt (Nat.lt_succ_self _))
  unfold step at h
  split at h
  · cases h
  cases op <;> dsimp only at h
  case ends code =>
    split at h
    · rename_i a1 hp
      cases h
      have h1 := List.append_cancel_left hr
      have h2 := (List.cons.inj h1).1
      have h3 := (Prod.mk.inj h2).1
      have h4 := (Prod.mk.inj h2).2
      subst h3
      rw [Bool.and_eq_true, Bool.and_eq_true] at h4
      have h5 := of_decide_eq_true h4.1.1
      subst h5
      refine ⟨rfl, hp, h4.1.2, ?_⟩
      cases hq : s.terminated with
      | false => rfl
      | true => rw [hq] at h4; exact absurd h4.2 (by decide)
    · cases h
  case thread =>
    unfold threadStep at h
    cases hp : s.pc <;> rw [hp] at h <;> dsimp only at h <;> exfalso
    case line => grind [addMessage_ran]
    case launch =>
      split at h <;> cases h
      · exact ne hr
      · exact nomatch (Prod.mk.inj (List.cons.inj (List.append_cancel_left hr)).1).2
    all_goals grind [answer, stopFound, stop]
  case call => grind [file_ran, nzb_ran]
  all_goals grind [stop]

/-- A new unrar starts without the report of the one before; nothing else sets the report but the message of unrar (`message_effect`). -/
theorem started {s s' : S} {a : Bytes} (hp : s.pc = .launch a) (h : step true s .thread = some s') :
    s'.pc = .reading a ∧ s'.allOk = false ∧ s'.unpacking = true ∧ s'.ran = s.ran := by
  unfold step at h
  split at h
  · cases h
  unfold threadStep at h
  rw [hp] at h
  cases h
  exact ⟨rfl, rfl, rfl, rfl⟩

/-- At the beginning all first volumes in the directory are found. -/
theorem scan_all {cmdOk : Bool} {s s' : S} (hp : s.pc = .scan) (h : step cmdOk s .thread = some s') :
    ∀ f, f ∈ s'.found ↔ f ∈ s.disk ∧ isMain f = true := by
  unfold step at h
  split at h
  · cases h
  unfold threadStep at h
  rw [hp] at h
  cases h
  intro f
  exact List.mem_filter

/-- If the user has changed the directory, the next question of unrar stops the job. -/
theorem relocated_stops {cmdOk : Bool} {s s' : S} {a t f : Bytes} (hp : s.pc = .line a t) (ht : asksFor t = some f) (hq : s.inQueue = true)
    (hr : s.relocated = true) (h : step cmdOk s .thread = some s') : s'.stopped = true ∧ s'.pc = .look a f := by
  unfold step at h
  split at h
  · cases h
  unfold threadStep at h
  rw [hp] at h
  dsimp only at h
  split at h
  · cases h
  · cases h
    unfold addMessage
    rw [ht]
    dsimp only
    unfold checkDir
    rw [if_pos ⟨hq, hr⟩]
    exact ⟨rfl, rfl⟩

/-- Every archive which was found at the beginning or was reported during the download is given to unrar, or is still waiting in the list or is
the one unrar works on. -/
theorem archives_accounted {cmdOk : Bool} {disk left : List Bytes} {ops : List Op} {s : S} (h : steps cmdOk (init disk left) ops = some s)
    (g : Bytes) (hg : g ∈ s.found ∨ g ∈ s.reported) (hm : isMain g = true) :
    (∃ ok, (g, ok) ∈ s.ran) ∨ g ∈ s.archives ∨ current s.pc = some g := by
  have hi := inv_steps ops (inv_init disk left) h
  rcases hi.pend g (List.mem_append.mpr hg) hm with h1 | h1
  · obtain ⟨⟨a, ok⟩, h2, h3⟩ := List.mem_map.mp h1
    exact Or.inl ⟨ok, by rw [← h3]; exact h2⟩
  · exact Or.inr h1

/-- No first volume is reported after the thread has found its list empty for the last time. -/
def Calm (cmdOk : Bool) : S → List Op → Prop
  | _, [] => True
  | s, o :: l =>
    (o = .call → ∀ g, s.caller = some (.file g) → isMain g = true → s.pc ≠ .idle ∧ over s.pc = false) ∧
    ∀ s', step cmdOk s o = some s' → Calm cmdOk s' l

/-- Nothing is left in the list. -/
def Empty (s : S) : Prop :=
  (s.pc = .idle → s.archives = []) ∧ ((s.pc = .leave ∨ s.pc = .finish) → s.stopped = false → s.unpackOk = true → s.archives = []) ∧
  (s.status = .success → s.archives = [])

theorem addMessage_pc (s : S) (a t : Bytes) : current (addMessage s a t).pc = some a ∧ (addMessage s a t).status = s.status := by
  unfold addMessage
  split
  · unfold checkDir; split <;> exact ⟨rfl, rfl⟩
  · obtain ⟨x, hx⟩ := noteVolume_eq t { s with pc := .reading a }
    rw [hx]
    unfold checkDamage checkAllOk stopFound
    split
    · split <;> exact ⟨rfl, rfl⟩
    · exact ⟨rfl, rfl⟩

theorem file_frame (s : S) (g : Bytes) : (fileDownloaded s g).pc = s.pc ∧ (fileDownloaded s g).status = s.status ∧
    (fileDownloaded s g).stopped = s.stopped ∧ (fileDownloaded s g).unpackOk = s.unpackOk ∧
    (fileDownloaded s g).archives = (if isMain g then s.archives ++ [g] else s.archives) := by
  unfold fileDownloaded wake answer
  dsimp only
  split
  · split
    · split <;> exact ⟨rfl, rfl, rfl, rfl, rfl⟩
    · exact ⟨rfl, rfl, rfl, rfl, rfl⟩
  · exact ⟨rfl, rfl, rfl, rfl, rfl⟩

theorem nzb_frame (s : S) : (nzbDownloaded s).pc = s.pc ∧ (nzbDownloaded s).status = s.status ∧ (nzbDownloaded s).unpackOk = s.unpackOk ∧
    (nzbDownloaded s).archives = s.archives ∧ ((nzbDownloaded s).stopped = false → s.stopped = false) := by
  unfold nzbDownloaded
  dsimp only
  split
  · exact ⟨rfl, rfl, rfl, rfl, fun q => q⟩
  · exact ⟨rfl, rfl, rfl, rfl, fun q => nomatch q⟩

theorem empty_step {left : List Bytes} {cmdOk : Bool} {s s' : S} {op : Op} (hi : Inv left s) (he : Empty s)
    (hc : op = .call → ∀ g, s.caller = some (.file g) → isMain g = true → s.pc ≠ .idle ∧ over s.pc = false)
    (h : step cmdOk s op = some s') : Empty s' := by
  obtain ⟨e1, e2, e3⟩ := he
  have hsu := hi.succ
  have hok := hi.ok1
  have hok2 := hi.ok2
  have hdet := hi.det
  have hatt := hi.att
  have hex := hi.ex
  have hlv := hi.lv
  clear hi
  unfold step at h
  split at h
  · cases h
  cases op <;> dsimp only at h
  case thread =>
    unfold threadStep at h
    cases hp : s.pc <;> rw [hp] at h <;> dsimp only at h
    case line a t =>
      split at h <;> cases h
      have h1 := addMessage_pc s a t
      refine ⟨?_, ?_, ?_⟩
      · intro q; rw [q] at h1; exact nomatch h1.1
      · rintro (q | q) <;> rw [q] at h1 <;> exact nomatch h1.1
      · intro q; rw [h1.2] at q; rw [(hsu q).1] at hp; cases hp
    all_goals unfold Empty; grind [answer, stopFound, stop, over]
  case call =>
    split at h
    · cases h
    · rename_i c hcl
      split at h
      · cases h
      · rename_i hg
        have hc := hc rfl
        cases c <;> cases h
        · rename_i g
          have hf := file_frame s g
          unfold Empty
          dsimp only
          grind [over]
        · have hf := nzb_frame s
          unfold Empty
          dsimp only
          grind
  case ends =>
    unfold Empty
    grind
  all_goals unfold Empty; grind [stop]

theorem empty_steps {left : List Bytes} {cmdOk : Bool} {s' : S} (ops : List Op) : ∀ {s : S}, Inv left s → Empty s → Calm cmdOk s ops →
    steps cmdOk s ops = some s' → Empty s' := by
  induction ops with
  | nil => intro s _ h _ he; cases he; exact h
  | cons o l ih =>
    intro s hi h hc he
    unfold steps at he
    unfold Calm at hc
    split at he
    · rename_i s1 h1
      exact ih (inv_step hi h1) (empty_step hi h hc.1 h1) (hc.2 s1 h1) he
    · cases he

/-- With success every first volume was unpacked without an error, if none was reported after the thread has found its list empty for the last
time (for the others see `missed_archive` and `uses_iff`). -/
theorem success_all_partial {cmdOk : Bool} {disk left : List Bytes} {ops : List Op} {s : S} (h : steps cmdOk (init disk left) ops = some s)
    (hc : Calm cmdOk (init disk left) ops) (hs : s.status = .success) (g : Bytes) (hg : g ∈ s.found ∨ g ∈ s.reported) (hm : isMain g = true) :
    (g, true) ∈ s.ran := by
  have he := empty_steps ops (inv_init disk left) (by refine ⟨?_, ?_, ?_⟩ <;> simp [init]) hc h
  have hss := success_sound h hs
  rcases archives_accounted h g hg hm with ⟨ok, h1⟩ | h1 | h1
  · have := hss.2.1 _ h1
    dsimp only at this
    rw [← this]; exact h1
  · rw [he.2.2 hs] at h1; cases h1
  · rw [hss.2.2.2.2.2.2.1] at h1; cases h1

/-! ### Witnesses -/

def v1 : Bytes := lit "a.part01.rar"
def v2 : Bytes := lit "a.part02.rar"
def w : Bytes := lit "b.rar"
def movie : Bytes := lit "movie.mkv"
def prompt (f : Bytes) : Bytes := lit "Unrar: Insert disk with " ++ f ++ mark
def fromVol (f : Bytes) : Bytes := lit "Unrar: Extracting from " ++ f
def allOkText : Bytes := lit "Unrar: All OK"

/-- The thread goes on `n` times. -/
def go (n : Nat) : List Op := List.replicate n .thread

/-- Up to reading of the output for the first archive. -/
def begin1 : List Op := go 6

/-- A line of unrar and its processing. -/
def line (t : Bytes) : List Op := [.says t, .thread]

theorem reached {disk left : List Bytes} {ops : List Op} {p : S → Bool} (h : (steps true (init disk left) ops).any p = true) :
    ∃ s, steps true (init disk left) ops = some s ∧ p s = true := by
  cases hs : steps true (init disk left) ops with
  | none => rw [hs] at h; cases h
  | some s => rw [hs] at h; exact ⟨s, rfl, h⟩

/-- A usual run: the first volume is there, the second one comes while unrar waits for it, then the download is complete. -/
def usual : List Op :=
  begin1 ++ line (fromVol v1) ++ [.writes movie] ++ [.says (prompt v2)] ++ go 3 ++ [.appear v2, .lock (.file v2), .call] ++ line (fromVol v2) ++
    [.lock .nzb, .call] ++ line allOkText ++ [.ends 0] ++ go 5

example : (steps true (init [v1] []) usual).any (fun s => decide (s.status = .success ∧ s.ran = [(v1, true)] ∧ s.answers = [(v2, v2)] ∧
    s.unpacked = [movie] ∧ s.postExtracted = [v1, v2])) = true := by decide +kernel

example : Calm true (init [v1] []) [] := trivial

/-- A first volume which is reported after the thread has found its list empty and before it looks if the download is complete is not unpacked,
and success is shown. -/
theorem missed_archive : ∃ ops s, steps true (init [v1] []) ops = some s ∧ s.status = .success ∧ s.failedSeen = false ∧ w ∈ s.reported ∧
    isMain w = true ∧ w ∈ s.disk ∧ ∀ ok, (w, ok) ∉ s.ran := by
  obtain ⟨s, h1, h2⟩ := reached (disk := [v1]) (left := []) (ops := begin1 ++ line (fromVol v1) ++ line allOkText ++ [.ends 0] ++ go 2 ++ [.appear w, .lock (.file w), .call, .lock .nzb, .call] ++ go 3)
    (p := fun s => decide (s.status = .success ∧ s.failedSeen = false ∧ w ∈ s.reported ∧ isMain w = true ∧ w ∈ s.disk ∧ (w, false) ∉ s.ran ∧ (w, true) ∉ s.ran)) (by decide +kernel)
  have h2 := of_decide_eq_true h2
  obtain ⟨a1, a2, a3, a4, a5, a6, a7⟩ := h2
  refine ⟨_, s, h1, a1, a2, a3, a4, a5, ?_⟩
  intro ok
  cases ok
  · exact a6
  · exact a7

/-- Post-processing uses the unpacked files without unpacking again exactly if there are rar-files, all of them were read by unrar and the
directory `_unpack` is there. So the archive of `missed_archive` makes everything be unpacked again. -/
theorem uses_iff (disk extracted : List Bytes) (there : Bool) : usesUnpacked disk extracted there = true ↔
    there = true ∧ (∃ f ∈ disk, Files.EndsWith f (lit ".rar")) ∧ ∀ f ∈ disk, Files.EndsWith f (lit ".rar") → f ∈ extracted := by
  have hr : ∀ f, Files.EndsWith f (lit ".rar") ↔ Files.isRar f = true := fun f => Files.endsWith_iff f (lit ".rar")
  unfold usesUnpacked notUnpacked
  simp only [hr]
  rw [Bool.and_eq_true, List.any_eq_true, Bool.not_eq_true', Bool.or_eq_false_iff, List.any_eq_false]
  constructor
  · rintro ⟨h1, h2, h3⟩
    refine ⟨by cases there <;> simp_all, h1, ?_⟩
    intro f hf hq
    have := h2 f (List.mem_filter.mpr ⟨hf, hq⟩)
    simpa using this
  · rintro ⟨h1, h2, h3⟩
    refine ⟨h2, ?_, by rw [h1]; rfl⟩
    intro f hf
    have := h3 f (List.mem_filter.mp hf).1 (List.mem_filter.mp hf).2
    simpa using this

/-! ### Volumes unrar asks for -/

/-- unrar is told to continue only if the volume it has asked for is in the directory, or a file with this name, up to the case of letters, was
just reported. -/
theorem answered_when {cmdOk : Bool} {s s' : S} {op : Op} (h : step cmdOk s op = some s') (hn : s'.answers ≠ s.answers) :
    ∃ f g, s'.answers = s.answers ++ [(f, g)] ∧ ((∃ a, s.pc = .look a f ∧ g = f ∧ f ∈ s.disk) ∨
      (op = .call ∧ s.caller = some (.file g) ∧ s.waiting = some f ∧ eqNoCase g f = true)) := by
  have hm : ∀ a t, (addMessage s a t).answers = s.answers := by
    intro a t
    unfold addMessage
    split
    · unfold checkDir; split <;> rfl
    · obtain ⟨x, hx⟩ := noteVolume_eq t { s with pc := .reading a }
      rw [hx]
      unfold checkDamage checkAllOk stopFound
      split
      · split <;> rfl
      · rfl
  unfold step at h
  split at h
  · cases h
  cases op <;> dsimp only at h
  case thread =>
    unfold threadStep at h
    cases hp : s.pc <;> rw [hp] at h <;> dsimp only at h
    case look a f =>
      split at h <;> cases h
      · rename_i hf
        unfold answer at hn ⊢
        split at hn
        · rename_i hu
          rw [if_pos hu]
          exact ⟨f, f, rfl, Or.inl ⟨a, rfl, rfl, hf⟩⟩
        · exact absurd rfl hn
      · exact absurd rfl hn
    all_goals grind [stopFound, stop]
  case call =>
    split at h
    · cases h
    · rename_i c hcl
      split at h
      · cases h
      · cases c <;> cases h
        · rename_i g _
          unfold fileDownloaded wake answer at hn ⊢
          dsimp only at hn ⊢
          grind
        · unfold nzbDownloaded at hn
          dsimp only at hn
          grind [stop]
  all_goals grind [stop]

/-- A reported volume wakes unrar which waits for it. -/
theorem woken {cmdOk : Bool} {s : S} {a f g : Bytes} (hp : s.pc = .reading a) (hu : s.unpacking = true) (hw : s.waiting = some f)
    (he : eqNoCase g f = true) (hc : s.caller = some (.file g)) (hk : s.crash = none) :
    ∃ s', step cmdOk s .call = some s' ∧ s'.asking = false ∧ s'.waiting = none ∧ s'.answers = s.answers ++ [(f, g)] := by
  unfold step
  rw [hk, hc, hp]
  refine ⟨_, rfl, ?_⟩
  unfold fileDownloaded wake answer
  rw [hw]
  dsimp only
  rw [if_pos he, if_pos hu]
  exact ⟨rfl, rfl, rfl⟩

/-- As long as no step crashes: after the completion of the download nobody waits for a volume, the job is stopped. -/
theorem no_wait_after_completion {cmdOk : Bool} {disk left : List Bytes} {ops : List Op} {s : S}
    (h : steps cmdOk (init disk left) ops = some s) (hc : s.completed = true) (hw : s.waiting ≠ none) (hk : s.crash = none) :
    s.stopped = true ∨ ∃ a f, s.pc = .give a f := by
  rcases (inv_steps ops (inv_init disk left) h).wait hc hw with h1 | h1 | h1
  · exact Or.inl h1
  · exact Or.inr h1
  · exact absurd hk h1

/-- unrar which has asked for `f` gets no answer, whatever happens, if no file with this name is reported from now on; when the download is
complete unrar is terminated. -/
theorem unanswered {cmdOk : Bool} {s s' : S} {a f : Bytes} {op : Op} (hp : s.pc = .reading a) (hk : s.asking = true)
    (hw : s.waiting = some f) (hu : s.unpacking = true) (hc : ∀ g, s.caller = some (.file g) → eqNoCase g f = false)
    (ho : ∀ g, op = .lock (.file g) → eqNoCase g f = false) (he : ∀ n, op ≠ .ends n) (h : step cmdOk s op = some s') :
    s'.pc = .reading a ∧ s'.asking = true ∧ s'.waiting = some f ∧ s'.unpacking = true ∧
      (∀ g, s'.caller = some (.file g) → eqNoCase g f = false) ∧
      (op = .call → s.caller = some .nzb → s'.stopped = true ∧ s'.terminated = true) := by
  unfold step at h
  split at h
  · cases h
  cases op <;> dsimp only at h
  case thread => unfold threadStep at h; rw [hp] at h; cases h
  case call =>
    split at h
    · cases h
    · rename_i c hcl
      rw [hp] at h
      dsimp only at h
      cases c <;> cases h
      · rename_i g
        have hg := hc g hcl
        unfold fileDownloaded wake
        rw [hw]
        dsimp only
        rw [if_neg (by rw [hg]; exact Bool.false_ne_true)]
        exact ⟨hp, hk, hw, hu, (fun _ q => nomatch q), fun _ q => by rw [hcl] at q; cases q⟩
      · unfold nzbDownloaded
        dsimp only
        rw [if_neg (by rw [hw]; exact fun q => nomatch q)]
        refine ⟨hp, hk, hw, hu, (fun _ q => nomatch q), fun _ _ => ⟨rfl, ?_⟩⟩
        unfold stop
        dsimp only
        rw [hu, Bool.or_true]
  case ends n => exact absurd rfl (he n)
  all_goals grind [stop]

/-- A volume which is written and reported between the look at the disk and the beginning of the waiting is waited for in vain: the download is
complete, all volumes are there, nothing has failed, and the unpacked files are thrown away. -/
theorem missed_volume : ∃ ops s, steps true (init [v1] []) ops = some s ∧ s.failedSeen = false ∧ v2 ∈ s.disk ∧ v2 ∈ s.reported ∧
    s.status = .failure ∧ s.answers = [] ∧ s.unpacked = [] := by
  obtain ⟨s, h1, h2⟩ := reached (disk := [v1]) (left := []) (ops := begin1 ++ line (fromVol v1) ++ [.writes movie] ++ [.says (prompt v2)] ++ go 2 ++ [.appear v2, .lock (.file v2), .call] ++ go 1 ++
    [.lock .nzb, .call, .ends 9] ++ go 2)
    (p := fun s => decide (s.failedSeen = false ∧ v2 ∈ s.disk ∧ v2 ∈ s.reported ∧ s.status = .failure ∧ s.answers = [] ∧ s.unpacked = [])) (by decide +kernel)
  have h2 := of_decide_eq_true h2
  exact ⟨_, s, h1, h2⟩

/-! ### Locks -/

/-- The thread waits for the queue while it holds the list of volumes only after the completion of the download. -/
theorem give_completed {cmdOk : Bool} {disk left : List Bytes} {ops : List Op} {s : S} (h : steps cmdOk (init disk left) ops = some s)
    {a f : Bytes} (hp : s.pc = .give a f) : s.completed = true := (inv_steps ops (inv_init disk left) h).give a f hp

/-- Both threads wait for each other. -/
def Dead (s : S) : Prop := (∃ a f, s.pc = .give a f) ∧ s.caller ≠ none

/-- Then neither the thread nor anything which needs the queue goes on, for ever. -/
theorem dead_stays {cmdOk : Bool} {s s' : S} {op : Op} (hd : Dead s) (h : step cmdOk s op = some s') :
    Dead s' ∧ s'.caller = s.caller ∧ s'.pc = s.pc ∧ ((∃ f, op = .appear f) ∨ (∃ f, op = .vanish f) ∨ ∃ f, op = .writes f) := by
  obtain ⟨⟨a, f, hp⟩, hc⟩ := hd
  unfold Dead
  unfold step at h
  split at h
  · cases h
  cases op <;> dsimp only at h
  case thread =>
    unfold threadStep at h
    rw [hp] at h
    dsimp only at h
    rw [if_pos (by cases hq : s.caller with
      | none => exact absurd hq hc
      | some _ => rfl)] at h
    cases h
  all_goals grind [stop]

/-- And it happens: after the completion of the download one more file is reported, for example a par2-file which the user has unpaused, while
unrar asks for a volume which does not exist. -/
theorem dead_reachable : ∃ ops s, steps true (init [v1, lit "a.par2"] []) ops = some s ∧ Dead s ∧ s.crash = none := by
  obtain ⟨s, h1, h2⟩ := reached (disk := [v1, lit "a.par2"]) (left := []) (ops := begin1 ++ line (fromVol v1) ++ [.lock .nzb, .call] ++ [.says (prompt v2)] ++ go 3 ++ [.lock (.file (lit "a.par2"))])
    (p := fun s => decide (s.pc = .give v1 v2 ∧ s.caller ≠ none ∧ s.crash = none)) (by decide +kernel)
  have h2 := of_decide_eq_true h2
  exact ⟨_, s, h1, ⟨⟨v1, v2, h2.1⟩, h2.2.1⟩, h2.2.2⟩

/-! ### Stopping -/

/-- A job which was deleted has lost its connection to the entry: unrar which waits then waits for ever, as long as it does not end by itself. -/
theorem orphan_stays {cmdOk : Bool} {s s' : S} {a : Bytes} {op : Op} (hp : s.pc = .reading a) (hk : s.asking = true)
    (ha : s.attached = false) (hc : s.caller = none) (he : ∀ n, op ≠ .ends n) (h : step cmdOk s op = some s') :
    s'.pc = .reading a ∧ s'.asking = true ∧ s'.attached = false ∧ s'.caller = none ∧ s'.terminated = s.terminated := by
  unfold step at h
  split at h
  · cases h
  cases op <;> dsimp only at h
  case thread => unfold threadStep at h; rw [hp] at h; cases h
  case ends n => exact absurd rfl (he n)
  all_goals grind

/-- And unrar is not terminated if the job is deleted after the thread has taken an archive and before it has started unrar. -/
theorem deleted_hangs : ∃ ops s, steps true (init [v1] []) ops = some s ∧ s.pc = .reading v1 ∧ s.asking = true ∧ s.attached = false ∧
    s.caller = none ∧ s.terminated = false ∧ s.inQueue = false := by
  obtain ⟨s, h1, h2⟩ := reached (disk := [v1]) (left := []) (ops := go 4 ++ [.deleted, .removed, .vanish v1] ++ go 2 ++ line (fromVol v1) ++ [.says (prompt v2)] ++ go 3)
    (p := fun s => decide (s.pc = .reading v1 ∧ s.asking = true ∧ s.attached = false ∧ s.caller = none ∧ s.terminated = false ∧ s.inQueue = false)) (by decide +kernel)
  have h2 := of_decide_eq_true h2
  exact ⟨_, s, h1, h2⟩

/-- Otherwise stopping terminates unrar. -/
theorem stop_terminates (s : S) (h : s.unpacking = true) : (stop s).terminated = true ∧ (stop s).stopped = true := by
  unfold stop
  dsimp only
  rw [h, Bool.or_true]
  exact ⟨rfl, rfl⟩

/-- Undefined behaviour happens only when the entry has left the queue after the completion of the download, or when unrar has ended without an
answer to its question. -/
theorem crash_only {cmdOk : Bool} {disk left : List Bytes} {ops : List Op} {s : S} (h : steps cmdOk (init disk left) ops = some s) :
    (s.crash = some .noEntry → s.inQueue = false ∧ s.completed = true) ∧ (s.crash = some .closedPipe → s.diedAsking = true) := by
  have hi := inv_steps ops (inv_init disk left) h
  exact ⟨hi.c1, hi.c2⟩

/-- The first happens: the entry is deleted from post-processing while unrar asks for a volume which does not exist. -/
theorem no_entry_crash : ∃ ops s, steps true (init [v1] []) ops = some s ∧ s.crash = some .noEntry := by
  obtain ⟨s, h1, h2⟩ := reached (disk := [v1]) (left := []) (ops := begin1 ++ line (fromVol v1) ++ [.lock .nzb, .call] ++ [.says (prompt v2), .deleted, .removed] ++ go 4)
    (p := fun s => decide (s.crash = some .noEntry)) (by decide +kernel)
  have h2 := of_decide_eq_true h2
  exact ⟨_, s, h1, h2⟩

/-- The second happens: unrar is killed while it waits, and the volume is reported before the thread has finished. -/
theorem closed_pipe_crash : ∃ ops s, steps true (init [v1] []) ops = some s ∧ s.crash = some .closedPipe := by
  obtain ⟨s, h1, h2⟩ := reached (disk := [v1]) (left := []) (ops := begin1 ++ line (fromVol v1) ++ [.says (prompt v2)] ++ go 3 ++ [.ends 9, .appear v2, .lock (.file v2), .call])
    (p := fun s => decide (s.crash = some .closedPipe)) (by decide +kernel)
  have h2 := of_decide_eq_true h2
  exact ⟨_, s, h1, h2⟩

/-- Once a file with failed articles was reported, or the job was deleted, or the directory was found to be changed, success is never shown. -/
theorem stopped_no_success {cmdOk : Bool} {disk left : List Bytes} {ops : List Op} {s : S} (h : steps cmdOk (init disk left) ops = some s)
    (hs : s.stopped = true) : s.status ≠ .success := by
  intro q
  rw [(success_sound h q).2.2.2.2.1] at hs
  cases hs

/-- Post-processing goes on with the entry only when the job has ended or was stopped; and when the job has ended or was deleted it is not kept
from it. -/
theorem post_goes_on {cmdOk : Bool} {disk left : List Bytes} {ops : List Op} {s : S} (h : steps cmdOk (init disk left) ops = some s) :
    (mayPick s = true → s.attached = false ∧ (s.pc = .exited ∨ s.stopped = true)) ∧
    (s.pc = .exited ∨ s.attached = false → s.inQueue = true → s.post = true → mayPick s = true) := by
  have hi := inv_steps ops (inv_init disk left) h
  have h1 := hi.att
  have h2 := hi.det
  have h3 := hi.detw
  have h4 := hi.ex
  unfold mayPick
  grind

/-! ### The directory `_unpack` -/

/-- After a failure of unrar nothing is left in the directory. -/
theorem failed_clean {cmdOk : Bool} {disk left : List Bytes} {ops : List Op} {s : S} (h : steps cmdOk (init disk left) ops = some s)
    (hp : s.pc = .exited) (h1 : s.processed = true) (h2 : s.unpackOk = false) : s.unpacked = [] :=
  (inv_steps ops (inv_init disk left) h).clean (Or.inr hp) h1 h2

/-- What was in the directory before the job, for example after a crash of the program, is still there with success: the cleaning before the
first archive does nothing, because the name of the directory is not set yet. -/
theorem leftovers_kept {cmdOk : Bool} {disk left : List Bytes} {ops : List Op} {s : S} (h : steps cmdOk (init disk left) ops = some s)
    (hs : s.status = .success) : ∀ f ∈ left, f ∈ s.unpacked := by
  have hi := inv_steps ops (inv_init disk left) h
  exact hi.keep (Or.inl (hi.succ hs).2.2.1)

example : (steps true (init [v1] [lit "old.mkv"]) usual).any
    (fun s => decide (s.status = .success ∧ s.unpacked = [lit "old.mkv", movie])) = true := by decide +kernel

/-- A job which is stopped between two archives leaves what it has unpacked, with the status of failure. -/
theorem cancelled_left : ∃ ops s, steps true (init [v1] []) ops = some s ∧ s.pc = .exited ∧ s.status = .failure ∧ s.unpacked = [movie] := by
  obtain ⟨s, h1, h2⟩ := reached (disk := [v1]) (left := []) (ops := begin1 ++ line (fromVol v1) ++ [.writes movie] ++ line allOkText ++ [.ends 0] ++ [.failedFile] ++ go 3)
    (p := fun s => decide (s.pc = .exited ∧ s.status = .failure ∧ s.unpacked = [movie])) (by decide +kernel)
  have h2 := of_decide_eq_true h2
  exact ⟨_, s, h1, h2⟩

end Verif.DirectUnpack
