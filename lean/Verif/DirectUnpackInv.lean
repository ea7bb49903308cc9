import Verif.DirectUnpack
/-
The invariant of the threads of direct unpack.
-/
namespace Verif.DirectUnpack
open CStr
open Rpc (eqNoCase)

/-- The archive the thread has taken. -/
def current : Pc → Option Bytes
  | .prepare a | .launch a | .reading a | .line a _ | .look a _ | .absent a _ | .give a _ => some a
  | _ => none

/-- unrar runs. -/
def running : Pc → Bool
  | .reading _ | .line _ _ | .look _ _ | .absent _ _ | .give _ _ => true
  | _ => false

/-- After the loop. -/
def over : Pc → Bool
  | .leave | .finish | .exited => true
  | _ => false

structure Inv (left : List Bytes) (s : S) : Prop where
  att : s.attached = true ↔ s.status = .running
  gone : s.inQueue = false → s.attached = false
  det : s.attached = false → s.stopped = true ∨ s.pc = .exited
  detw : s.attached = false → s.working = false
  call : s.caller ≠ none → s.attached = true ∧ s.inQueue = true
  ex : s.pc = .exited → s.attached = false
  wait : s.completed = true → s.waiting ≠ none → s.stopped = true ∨ (∃ a f, s.pc = .give a f) ∨ s.crash ≠ none
  unp : s.unpacking = running s.pc
  give : ∀ a f, s.pc = .give a f → s.completed = true
  ok1 : s.unpackOk = true → s.processed = true ∧ s.ran ≠ [] ∧ ∀ r ∈ s.ran, r.2 = true
  ok2 : over s.pc = false → ∀ r ∈ s.ran, r.2 = true
  proc : (current s.pc ≠ none ∧ ∀ a, s.pc ≠ .prepare a) → s.processed = true
  lv : (s.pc = .leave ∨ s.pc = .finish) → s.completed = true ∨ s.stopped = true ∨ s.unpackOk = false
  succ : s.status = .success → s.pc = .exited ∧ s.processed = true ∧ s.unpackOk = true ∧ s.stopped = false ∧ s.completed = true ∧
    s.postExtracted = s.extracted
  pext : s.status ≠ .success → s.postExtracted = []
  cpost : s.completed = true → s.post = true
  pend : ∀ g ∈ s.found ++ s.reported, isMain g = true → g ∈ s.ran.map Prod.fst ∨ g ∈ s.archives ∨ current s.pc = some g
  fail : s.failedSeen = true → s.stopped = true
  term : s.terminated = true → s.stopped = true
  c1 : s.crash = some .noEntry → s.inQueue = false ∧ s.completed = true
  c2 : s.crash = some .closedPipe → s.diedAsking = true
  ask : s.asking = true → s.unpacking = true
  asks : s.diedAsking = false → s.crash = none →
    (s.waiting ≠ none → s.asking = true ∧ ((∃ a, s.pc = .reading a) ∨ ∃ a f, s.pc = .give a f)) ∧
    ((∃ a f, s.pc = .look a f) ∨ (∃ a f, s.pc = .absent a f) ∨ (∃ a f, s.pc = .give a f) → s.asking = true) ∧
    (∀ a t, s.pc = .line a t → (asksFor t).isSome = true → s.asking = true)
  dir : s.dirSet = s.processed
  keep : (s.unpackOk = true ∨ (s.pc ≠ .finish ∧ s.pc ≠ .exited)) → ∀ f ∈ left, f ∈ s.unpacked
  beg : s.pc = .start → s.processed = false
  clean : (s.pc = .finish ∨ s.pc = .exited) → s.processed = true → s.unpackOk = false → s.unpacked = []

theorem inv_init (disk left : List Bytes) : Inv left (init disk left) := by
  constructor <;> simp [init, running, over, current]

theorem inv_stop {left : List Bytes} {s : S} (h : Inv left s) (h0 : s.attached = true) : Inv left (stop s) := by
  obtain ⟨h1, h2, h3, h4, h5, h6, h7, h8, h9, h10, h11, h12, h13, h14, h15, h16, h17, h18, h19, h20, h21, h22, h23, h24, h25, h26, h27⟩ := h
  constructor <;> simp only [stop] <;> grind

theorem noteVolume_eq (t : Bytes) (s : S) : ∃ x, noteVolume t s = { s with extracted := x } := by
  unfold noteVolume
  split
  · split
    · exact ⟨_, rfl⟩
    · exact ⟨_, rfl⟩
  · exact ⟨_, rfl⟩

theorem inv_line {left : List Bytes} {s : S} {a t : Bytes} (h : Inv left s) (hc : s.crash = none) (hp : s.pc = .line a t) :
    Inv left (addMessage s a t) := by
  obtain ⟨h1, h2, h3, h4, h5, h6, h7, h8, h9, h10, h11, h12, h13, h14, h15, h16, h17, h18, h19, h20, h21, h22, h23, h24, h25, h26, h27⟩ := h
  have hs : s.status ≠ .success := by grind
  unfold addMessage
  cases ha : asksFor t with
  | some f =>
    dsimp only
    unfold checkDir
    split <;> constructor <;> simp only [stop] <;> grind [running, over, current]
  | none =>
    dsimp only
    obtain ⟨x, hx⟩ := noteVolume_eq t { s with pc := .reading a }
    rw [hx]
    unfold checkDamage checkAllOk
    split
    · have hq : s.inQueue = true := by grind
      unfold stopFound
      rw [if_pos hq]
      constructor <;> simp only [stop] <;> grind [running, over, current]
    · constructor <;> dsimp only <;> grind [running, over, current]

theorem inv_report {left : List Bytes} {s : S} {g : Bytes} (h : Inv left s) :
    Inv left { s with reported := s.reported ++ [g], archives := if isMain g then s.archives ++ [g] else s.archives, caller := none } := by
  obtain ⟨h1, h2, h3, h4, h5, h6, h7, h8, h9, h10, h11, h12, h13, h14, h15, h16, h17, h18, h19, h20, h21, h22, h23, h24, h25, h26, h27⟩ := h
  refine ⟨h1, h2, h3, h4, (fun q => absurd rfl q), h6, h7, h8, h9, h10, h11, h12, h13, h14, h15, h16, ?_,
    h18, h19, h20, h21, h22, h23, h24, h25, h26, h27⟩
  dsimp only
  intro x hx hm
  have hsub : ∀ y ∈ s.archives, y ∈ (if isMain g then s.archives ++ [g] else s.archives) := by
    intro y hy
    split
    · exact List.mem_append_left _ hy
    · exact hy
  rw [← List.append_assoc] at hx
  rcases List.mem_append.mp hx with hx | hx
  · exact (h17 x hx hm).imp id (Or.imp (hsub x) id)
  · have := List.mem_singleton.mp hx
    subst this
    rw [if_pos hm]
    exact Or.inr (Or.inl (List.mem_append_right _ (List.mem_singleton.mpr rfl)))

theorem inv_answered {left : List Bytes} {s : S} {g : Bytes} (h : Inv left s) (hc : s.crash = none) (hg : ∀ a f, s.pc ≠ .give a f) :
    Inv left (wake s g) := by
  have hd : s.diedAsking = false → s.waiting ≠ none → ∃ a, s.pc = .reading a := by
    intro h1 h2
    rcases ((h.asks h1 hc).1 h2).2 with h3 | ⟨a, f, h3⟩
    · exact h3
    · exact absurd h3 (hg a f)
  unfold wake
  split
  · rename_i f hw
    split
    · have hu := h.unp
      unfold answer
      dsimp only
      cases hr : running s.pc with
      | true =>
        rw [hu, hr]
        simp only [if_true]
        obtain ⟨h1, h2, h3, h4, h5, h6, h7, h8, h9, h10, h11, h12, h13, h14, h15, h16, h17, h18, h19, h20, h21, h22, h23, h24, h25, h26, h27⟩ := h
        constructor <;> dsimp only <;> grind
      | false =>
        have : s.diedAsking = true := by
          cases hq : s.diedAsking with
          | true => rfl
          | false =>
            obtain ⟨a, ha⟩ := hd hq (by rw [hw]; exact fun q => nomatch q)
            rw [ha] at hr; cases hr
        rw [hu, hr]
        simp only [if_false, Bool.false_eq_true]
        obtain ⟨h1, h2, h3, h4, h5, h6, h7, h8, h9, h10, h11, h12, h13, h14, h15, h16, h17, h18, h19, h20, h21, h22, h23, h24, h25, h26, h27⟩ := h
        constructor <;> dsimp only <;> grind
    · exact h
  · exact h

theorem inv_file {left : List Bytes} {s : S} {g : Bytes} (h : Inv left s) (hc : s.crash = none) (hg : ∀ a f, s.pc ≠ .give a f) :
    Inv left { fileDownloaded s g with caller := none } := by
  exact inv_report (inv_answered h hc hg)

theorem inv_nzb {left : List Bytes} {s : S} (h : Inv left s) (ha : s.attached = true) :
    Inv left { nzbDownloaded s with caller := none } := by
  obtain ⟨h1, h2, h3, h4, h5, h6, h7, h8, h9, h10, h11, h12, h13, h14, h15, h16, h17, h18, h19, h20, h21, h22, h23, h24, h25, h26, h27⟩ := h
  unfold nzbDownloaded
  dsimp only
  split <;> constructor <;> simp only [stop] <;> grind

theorem inv_finish {left : List Bytes} {cmdOk : Bool} {s s' : S} (h : Inv left s) (hp : s.pc = .finish) (he : threadStep cmdOk s = some s') :
    Inv left s' := by
  obtain ⟨h1, h2, h3, h4, h5, h6, h7, h8, h9, h10, h11, h12, h13, h14, h15, h16, h17, h18, h19, h20, h21, h22, h23, h24, h25, h26, h27⟩ := h
  unfold threadStep at he
  rw [hp] at he
  dsimp only at he
  split at he
  · cases he
  rename_i hn
  split at he
  · cases he
    constructor <;> dsimp only <;> grind [running, over, current]
  · rename_i hq
    have hcl : s.caller = none := by
      cases hz : s.caller with
      | none => rfl
      | some c => exact absurd (by rw [hz]; rfl) hn
    have hq1 : s.inQueue = true := by grind
    have hq2 : s.attached = true := by grind
    have hps : s.postExtracted = [] := by grind
    cases hst : s.processed <;> cases huk : s.unpackOk <;> cases hsp : s.stopped <;> rw [hst, huk, hsp] at he <;> cases he <;> constructor <;>
      dsimp only <;> grind [running, over, current]

theorem inv_look {left : List Bytes} {s : S} {a f : Bytes} (h : Inv left s) (hp : s.pc = .look a f) :
    Inv left (answer { s with pc := .reading a } f f) := by
  have hu : s.unpacking = true := by rw [h.unp, hp]; rfl
  unfold answer
  rw [if_pos hu]
  obtain ⟨h1, h2, h3, h4, h5, h6, h7, h8, h9, h10, h11, h12, h13, h14, h15, h16, h17, h18, h19, h20, h21, h22, h23, h24, h25, h26, h27⟩ := h
  constructor <;> dsimp only <;> grind [running, over, current]

theorem inv_ends {left : List Bytes} {s : S} {a : Bytes} {ok : Bool} (h : Inv left s) (hp : s.pc = .reading a) :
    Inv left { s with pc := if ok then .top else .leave, unpackOk := ok, unpacking := false, asking := false, ran := s.ran ++ [(a, ok)],
                      diedAsking := s.diedAsking || s.asking } := by
  obtain ⟨h1, h2, h3, h4, h5, h6, h7, h8, h9, h10, h11, h12, h13, h14, h15, h16, h17, h18, h19, h20, h21, h22, h23, h24, h25, h26, h27⟩ := h
  cases ok
  · simp only [if_false, Bool.false_eq_true]
    constructor <;> dsimp only <;> grind [running, over, current]
  · simp only [if_true]
    have hne : s.ran ++ [(a, true)] ≠ [] := by simp
    constructor <;> dsimp only <;> grind [running, over, current]

theorem inv_says {left : List Bytes} {s : S} {a t : Bytes} (h : Inv left s) (hp : s.pc = .reading a) (hk : ¬ s.asking = true) :
    Inv left { s with pc := .line a t, asking := (asksFor t).isSome } := by
  obtain ⟨h1, h2, h3, h4, h5, h6, h7, h8, h9, h10, h11, h12, h13, h14, h15, h16, h17, h18, h19, h20, h21, h22, h23, h24, h25, h26, h27⟩ := h
  constructor <;> dsimp only <;> grind [running, over, current]

set_option maxHeartbeats 1000000 in
theorem inv_thread {left : List Bytes} {cmdOk : Bool} {s s' : S} (h : Inv left s) (hc : s.crash = none) (he : threadStep cmdOk s = some s') :
    Inv left s' := by
  have he0 := he
  obtain ⟨h1, h2, h3, h4, h5, h6, h7, h8, h9, h10, h11, h12, h13, h14, h15, h16, h17, h18, h19, h20, h21, h22, h23, h24, h25, h26, h27⟩ := h
  unfold threadStep at he
  cases hp : s.pc <;> rw [hp] at he <;> dsimp only at he
  case start => constructor <;> grind [running, over, current]
  case scan => constructor <;> grind [running, over, current]
  case top => constructor <;> grind [running, over, current]
  case pick => constructor <;> grind [running, over, current]
  case idle => constructor <;> grind [running, over, current]
  case prepare => constructor <;> grind [running, over, current]
  case launch => constructor <;> grind [running, over, current]
  case reading => cases he
  case line a t =>
    split at he
    · cases he
    · cases he
      exact inv_line ⟨h1, h2, h3, h4, h5, h6, h7, h8, h9, h10, h11, h12, h13, h14, h15, h16, h17, h18, h19, h20, h21, h22, h23, h24, h25, h26, h27⟩ hc hp
  case look a f =>
    split at he
    · cases he
      exact inv_look ⟨h1, h2, h3, h4, h5, h6, h7, h8, h9, h10, h11, h12, h13, h14, h15, h16, h17, h18, h19, h20, h21, h22, h23, h24, h25, h26, h27⟩ hp
    · cases he
      constructor <;> dsimp only <;> grind [running, over, current]
  case absent => constructor <;> grind [running, over, current]
  case give => constructor <;> grind [running, over, current, stopFound, stop]
  case leave => constructor <;> grind [running, over, current]
  case finish => exact inv_finish ⟨h1, h2, h3, h4, h5, h6, h7, h8, h9, h10, h11, h12, h13, h14, h15, h16, h17, h18, h19, h20, h21, h22, h23, h24, h25, h26, h27⟩ hp he0
  case exited => cases he

set_option maxHeartbeats 1000000 in
theorem inv_step {left : List Bytes} {cmdOk : Bool} {s s' : S} {op : Op} (h : Inv left s) (he : step cmdOk s op = some s') :
    Inv left s' := by
  unfold step at he
  split at he
  · cases he
  rename_i hc
  have hc : s.crash = none := by cases hq : s.crash with
    | none => rfl
    | some c => rw [hq] at hc; exact absurd rfl hc
  cases op <;> dsimp only at he
  case thread => exact inv_thread h hc he
  case says t =>
    split at he
    · rename_i a hp
      split at he
      · cases he
      · rename_i ht
        cases he
        exact inv_says h hp (fun q => ht (Or.inr q))
    · cases he
  case ends =>
    split at he
    · rename_i a hp
      cases he
      exact inv_ends h hp
    · cases he
  case call =>
    split at he
    · cases he
    · rename_i c hcl
      have hat := (h.call (by rw [hcl]; exact fun q => nomatch q)).1
      split at he
      · cases he
      · rename_i hg
        split at he <;> cases he
        · exact inv_file h hc (fun a f q => hg a f q)
        · exact inv_nzb h hat
  all_goals obtain ⟨h1, h2, h3, h4, h5, h6, h7, h8, h9, h10, h11, h12, h13, h14, h15, h16, h17, h18, h19, h20, h21, h22, h23, h24, h25, h26, h27⟩ := h
  case appear => constructor <;> grind
  case vanish => constructor <;> grind
  case lock => constructor <;> grind
  case failedFile => constructor <;> grind [stop]
  case deleted => constructor <;> grind [stop]
  case removed => constructor <;> grind
  case relocate => constructor <;> grind
  case shutdown => constructor <;> grind [stop]
  case writes => constructor <;> grind [running]

theorem inv_steps {left : List Bytes} {cmdOk : Bool} {s' : S} (ops : List Op) : ∀ {s : S}, Inv left s → steps cmdOk s ops = some s' →
    Inv left s' := by
  induction ops with
  | nil => intro s h he; cases he; exact h
  | cons o l ih =>
    intro s h he
    unfold steps at he
    split at he
    · rename_i s1 h1
      exact ih (inv_step h h1) he
    · cases he

end Verif.DirectUnpack
