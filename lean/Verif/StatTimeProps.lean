import Verif.StatTime

/-! Properties of up time and download time (C129). -/

namespace Verif.StatTime

/-! ## Specification -/

/-- Are there downloads after the event, if `on` tells it before. -/
def after (on : Bool) : Ev → Bool
  | .check _ => on
  | .begin _ => true
  | .finish _ => false

/-- The time during which there were downloads, from `t` to `now`. -/
def active : Bool → Int → List Ev → Int → Int
  | on, t, [], now => if on then now - t else 0
  | on, t, e :: l, now => (if on then e.now - t else 0) + active (after on e) e.now l now

/-- The clock does not go back, and never more than a minute passes between two checks; `c` is the time of the last check. -/
def Steady : Int → Int → List Ev → Prop
  | _, _, [] => True
  | t, c, .check now :: l => t ≤ now ∧ now - c ≤ 60 ∧ Steady now now l
  | t, c, .begin now :: l => t ≤ now ∧ Steady now c l
  | t, c, .finish now :: l => t ≤ now ∧ Steady now c l

/-! ## Proof -/

theorem run_cons (s s' : T) (e : Ev) (l : List Ev) (h : run s (e :: l) = some s') : ∃ s1, step s e = some s1 ∧ run s1 l = some s' := by
  simp only [run] at h
  cases he : step s e with
  | none => rw [he] at h; cases h
  | some s1 => rw [he] at h; exact ⟨s1, rfl, h⟩

theorem check_quiet (s : T) (now : Int) (h1 : s.lastCheck ≤ now) (h2 : now - s.lastCheck ≤ 60) : check s now = { s with lastCheck := now } := by
  unfold check
  dsimp only
  rw [if_neg (by omega)]

theorem times_key (evs : List Ev) : ∀ (s s' : T) (t acc : Int), 0 < t → 0 < s.startServer → s.lastCheck ≤ t → Steady t s.lastCheck evs →
    run s evs = some s' →
    (s.standBy = true → s.pausedFrom - s.startDownload = acc ∧ (s.startDownload = 0 → s.pausedFrom = 0)) →
    (s.standBy = false → t - s.startDownload = acc ∧ s.startDownload ≠ 0) → (s.startDownload = 0 → acc = 0) →
    0 ≤ acc →
    ∀ now, (∀ e ∈ evs, e.now ≤ now) → t ≤ now → (s.standBy = false → 0 < s.startDownload) → (s.standBy = true → s.startDownload = 0 ∨ 0 < s.startDownload ∧ s.pausedFrom ≤ t) →
    total s' now = (now - s.startServer, acc + active (!s.standBy) t evs now) := by
  induction evs with
  | nil =>
    intro s s' t acc ht hss hlc hst hr h1 h2 h3 h4 now hn htn h5 h6
    cases hr
    unfold total
    rw [if_pos hss]
    cases hsb : s.standBy with
    | true =>
      have := (h1 hsb).1
      simp only [if_true, active, Bool.not_true, Bool.false_eq_true, if_false, Int.add_zero]
      rw [this]
    | false =>
      have := (h2 hsb).1
      simp only [Bool.false_eq_true, if_false, active, Bool.not_false, if_true]
      congr 1
      omega
  | cons e l ih =>
    intro s s' t acc ht hss hlc hst hr h1 h2 h3 h4 now hn htn h5 h6
    obtain ⟨s1, hs, hl⟩ := run_cons s s' e l hr
    have hen := hn e (List.mem_cons_self ..)
    have hnl : ∀ x ∈ l, x.now ≤ now := fun x hx => hn x (List.mem_cons_of_mem _ hx)
    cases e with
    | check n =>
      simp only [step] at hs
      obtain ⟨a, b, hst'⟩ := hst
      rw [check_quiet s n (by omega) b] at hs
      cases hs
      simp only [Ev.now] at hen
      cases hsb : s.standBy with
      | true =>
        have := ih { s with lastCheck := n } s' n acc (by omega) hss (Int.le_refl _) hst' hl (fun _ => h1 hsb) (fun q => by simp [hsb] at q) h3 h4 now hnl (by omega)
          (fun q => by simp [hsb] at q) (fun _ => by rcases h6 hsb with q | ⟨q1, q2⟩; exact Or.inl q; exact Or.inr ⟨q1, by show s.pausedFrom ≤ n; omega⟩)
        rw [this]
        simp [active, hsb, after, Ev.now]
      | false =>
        have h2' := h2 hsb
        have := ih { s with lastCheck := n } s' n (acc + (n - t)) (by omega) hss (Int.le_refl _) hst' hl (fun q => by simp [hsb] at q)
          (fun _ => ⟨by show n - s.startDownload = _; omega, h2'.2⟩) (fun q => absurd q h2'.2) (by omega) now hnl (by omega)
          (fun _ => h5 hsb) (fun q => by simp [hsb] at q)
        rw [this]
        simp [active, hsb, after, Ev.now]
        omega
    | begin n =>
      simp only [step] at hs
      obtain ⟨a, hst'⟩ := hst
      simp only [Ev.now] at hen
      split at hs
      · rename_i hsb
        cases hs
        obtain ⟨p1, p2⟩ := h1 hsb
        by_cases hz : s.startDownload = 0
        · have he : enterLeave s false n = { s with standBy := false, startDownload := n, pausedFrom := 0 } := by
            unfold enterLeave; simp [hz]
          rw [he] at hl
          have hacc := h3 hz
          have := ih { s with standBy := false, startDownload := n, pausedFrom := 0 } s' n acc (by omega) hss (by show s.lastCheck ≤ n; omega) hst' hl (fun q => by cases q)
            (fun _ => ⟨by show n - n = acc; omega, by show n ≠ 0; omega⟩) (fun q => by exact absurd q (by show n ≠ 0; omega)) h4 now hnl (by omega) (fun _ => by show 0 < n; omega) (fun q => by cases q)
          rw [this]
          simp [active, hsb, after, Ev.now]
        · have he : enterLeave s false n = { s with standBy := false, startDownload := s.startDownload + (n - s.pausedFrom), pausedFrom := 0 } := by
            unfold enterLeave; simp [hz]
          rw [he] at hl
          rcases h6 hsb with q | ⟨q1, q2⟩
          · exact absurd q hz
          · have := ih { s with standBy := false, startDownload := s.startDownload + (n - s.pausedFrom), pausedFrom := 0 } s' n acc (by omega) hss (by show s.lastCheck ≤ n; omega) hst' hl (fun q => by cases q)
              (fun _ => ⟨by show n - (s.startDownload + (n - s.pausedFrom)) = acc; omega, by show s.startDownload + (n - s.pausedFrom) ≠ 0; omega⟩)
              (fun q => by exact absurd q (by show s.startDownload + (n - s.pausedFrom) ≠ 0; omega)) h4 now hnl (by omega)
              (fun _ => by show 0 < s.startDownload + (n - s.pausedFrom); omega) (fun q => by cases q)
            rw [this]
            simp [active, hsb, after, Ev.now]
      · cases hs
    | finish n =>
      simp only [step] at hs
      obtain ⟨a, hst'⟩ := hst
      simp only [Ev.now] at hen
      split at hs
      · cases hs
      · rename_i hsb
        rw [Bool.not_eq_true] at hsb
        cases hs
        have h2' := h2 hsb
        have h5' := h5 hsb
        have he : enterLeave s true n = { s with standBy := true, pausedFrom := n } := rfl
        rw [he] at hl
        have := ih { s with standBy := true, pausedFrom := n } s' n (acc + (n - t)) (by omega) hss (by show s.lastCheck ≤ n; omega) hst' hl
          (fun _ => ⟨by show n - s.startDownload = _; omega, fun q => absurd q h2'.2⟩) (fun q => by cases q) (fun q => absurd q h2'.2) (by omega) now hnl (by omega)
          (fun q => by cases q) (fun _ => Or.inr ⟨h5', Int.le_refl _⟩)
        rw [this]
        simp [active, hsb, after, Ev.now]
        omega

/-- **Up time and download time are right**: as long as the clock is steady, the program tells the time since it was started, and
the time during which there were downloads, however often they began and ended. -/
theorem times_shown (t0 : Int) (h0 : 0 < t0) (evs : List Ev) (hst : Steady t0 t0 evs) (s' : T) (hr : run (init t0) evs = some s')
    (now : Int) (hn : ∀ e ∈ evs, e.now ≤ now) (htn : t0 ≤ now) : total s' now = (now - t0, active false t0 evs now) := by
  have := times_key evs (init t0) s' t0 0 h0 h0 (Int.le_refl _) hst hr (fun _ => ⟨rfl, fun _ => rfl⟩) (fun q => by cases q) (fun _ => rfl) (Int.le_refl _) now hn htn
    (fun q => by cases q) (fun _ => Or.inl rfl)
  rw [this]
  simp [init]

/-- **A change of the clock costs two seconds**: at the check after a change (or a sleep of the computer) of `d` seconds both times are
one second less than at the check before, although the source means to count one second on ("because the method is called once per
second", StatMeter.cpp:209): the second is added to the start instead of taken from it. -/
theorem clock_change (s : T) (now : Int) (hd : now - s.lastCheck > 60 ∨ now - s.lastCheck < 0) (h0 : 0 < s.startServer)
    (h1 : 0 < s.startServer + (now - s.lastCheck + 1)) :
    (total (check s now) now).1 = (total s s.lastCheck).1 - 1 ∧
    (s.standBy = false → s.startDownload ≠ 0 → (total (check s now) now).2 = (total s s.lastCheck).2 - 1) ∧
    (s.standBy = true → (total (check s now) now).2 = (total s s.lastCheck).2) := by
  have he : check s now =
      { s with
        startServer := s.startServer + (now - s.lastCheck + 1)
        startDownload := if s.startDownload ≠ 0 ∧ s.standBy = false then s.startDownload + (now - s.lastCheck + 1) else s.startDownload
        lastCheck := now } := by
    unfold check
    dsimp only
    rw [if_pos hd]
    split <;> rfl
  rw [he]
  unfold total
  dsimp only
  rw [if_pos h1, if_pos h0]
  refine ⟨by omega, ?_, ?_⟩
  · intro h2 h3
    have h4 : (if s.startDownload ≠ 0 ∧ s.standBy = false then s.startDownload + (now - s.lastCheck + 1) else s.startDownload) =
        s.startDownload + (now - s.lastCheck + 1) := if_pos ⟨h3, h2⟩
    rw [h4]
    simp only [h2, Bool.false_eq_true, if_false]
    omega
  · intro h2
    rw [h2]
    simp

/-- **A download which begins between the change of the clock and the next check counts the change twice**: the download time is
too small by the whole change, and can become negative. -/
theorem change_counted_twice (s : T) (hs : s.standBy = true) (h1 : 0 < s.startDownload) (h3 : s.pausedFrom ≤ s.lastCheck)
    (d : Int) (hd : 60 < d) : ∃ s', run s [.begin (s.lastCheck + d), .check (s.lastCheck + d)] = some s' ∧
      (total s' (s.lastCheck + d)).2 = (total s s.lastCheck).2 - (d + 1) := by
  have he : enterLeave s false (s.lastCheck + d) = { s with standBy := false, startDownload := s.startDownload + (s.lastCheck + d - s.pausedFrom), pausedFrom := 0 } := by
    have hz : s.startDownload ≠ 0 := by omega
    unfold enterLeave
    simp [hz]
  refine ⟨check (enterLeave s false (s.lastCheck + d)) (s.lastCheck + d), ?_, ?_⟩
  · simp only [run, step, hs, if_true]
  · rw [he]
    unfold check
    dsimp only
    rw [if_pos (by omega), if_pos ⟨by omega, rfl⟩]
    unfold total
    dsimp only
    rw [hs]
    simp only [if_true, Bool.false_eq_true, if_false]
    omega

/-! ## Examples -/

def exEvs : List Ev := [.check 1000, .begin 1020, .check 1050, .finish 1100, .check 1101, .begin 1150, .check 1160]

example : Steady 1000 1000 exEvs ∧ (run (init 1000) exEvs).map (fun s => total s 1170) = some (170, 100) ∧ active false 1000 exEvs 1170 = 100 := by
  refine ⟨by simp [Steady, exEvs], by decide +kernel, by decide +kernel⟩

-- `clock_change`, `change_counted_twice`: after a change of an hour
example : (run (init 1000) [.check 1050, .begin 1050, .finish 1100, .check 1100, .begin 4700, .check 4700]).map (fun s => total s 4700) = some (99, -3551) := by
  decide +kernel

end Verif.StatTime
