import Verif.Service
import Verif.CalendarProps

/-! Properties of the background services (C130). -/

namespace Verif.Service

/-! ## Specification -/

/-- The times at which the service number `i` worked. -/
def works (i : Nat) (tr : List (Int × List Bool)) : List Int := (tr.filter (fun e => e.2.getD i false)).map (·.1)

/-- Every one is `k` after the one before. -/
def Every (k : Int) : Int → List Int → Prop
  | _, [] => True
  | t, x :: l => x = t + k ∧ Every k x l

/-! ## The wait -/

theorem wait_le (now : Int) (l : List Svc) : ∀ (w : Int), l.foldl (fun w s => if s.interval ≥ 0 then min w (s.interval - (now - s.last)) else w) w ≤ w ∧
    (∀ s ∈ l, s.interval ≥ 0 → l.foldl (fun w s => if s.interval ≥ 0 then min w (s.interval - (now - s.last)) else w) w ≤ s.interval - (now - s.last)) ∧
    (l.foldl (fun w s => if s.interval ≥ 0 then min w (s.interval - (now - s.last)) else w) w = w ∨
      ∃ s ∈ l, s.interval ≥ 0 ∧ l.foldl (fun w s => if s.interval ≥ 0 then min w (s.interval - (now - s.last)) else w) w = s.interval - (now - s.last)) := by
  induction l with
  | nil => intro w; exact ⟨Int.le_refl _, (fun s hs => nomatch hs), Or.inl rfl⟩
  | cons x l ih =>
    intro w
    rw [List.foldl_cons]
    obtain ⟨h1, h2, h3⟩ := ih (if x.interval ≥ 0 then min w (x.interval - (now - x.last)) else w)
    by_cases hx : x.interval ≥ 0
    · rw [if_pos hx] at h1 h2 h3 ⊢
      refine ⟨by omega, ?_, ?_⟩
      · intro s hs hi
        rcases List.mem_cons.1 hs with q | q
        · rw [q]; omega
        · exact h2 s q hi
      · rcases h3 with q | ⟨s, hs, hi, q⟩
        · by_cases hm : w ≤ x.interval - (now - x.last)
          · left; rw [q]; omega
          · right; exact ⟨x, List.mem_cons_self .., hx, by rw [q]; omega⟩
        · right; exact ⟨s, List.mem_cons_of_mem _ hs, hi, q⟩
    · rw [if_neg hx] at h1 h2 h3 ⊢
      refine ⟨h1, ?_, ?_⟩
      · intro s hs hi
        rcases List.mem_cons.1 hs with q | q
        · rw [q] at hi; exact absurd hi hx
        · exact h2 s q hi
      · rcases h3 with q | ⟨s, hs, hi, q⟩
        · left; exact q
        · right; exact ⟨s, List.mem_cons_of_mem _ hs, hi, q⟩

/-- **The wait ends when the first service is due**: for no service later, and not earlier than for one of them, unless after a day. -/
theorem wait_exact (now : Int) (l : List Svc) :
    (∀ s ∈ l, 0 ≤ s.interval → now + waitInterval now l ≤ s.last + s.interval) ∧
    (waitInterval now l = 86400 ∨ ∃ s ∈ l, 0 ≤ s.interval ∧ now + waitInterval now l = s.last + s.interval) := by
  obtain ⟨_, h2, h3⟩ := wait_le now l (60 * 60 * 24)
  unfold waitInterval
  refine ⟨?_, ?_⟩
  · intro s hs hi
    have := h2 s hs hi
    omega
  · rcases h3 with q | ⟨s, hs, hi, q⟩
    · left; exact q
    · right; exact ⟨s, hs, hi, by omega⟩

/-! ## The period -/

theorem run_cons (l : List Svc) (latest now : Int) (ts : List Int) (tr : List (Int × List Bool)) (h : run l latest (now :: ts) = some tr) :
    now ≤ latest ∧ ∃ r, tr = (now, l.map (fun s => due s now)) :: r ∧ run (work now l) (now + max 0 (waitInterval now (work now l))) ts = some r := by
  simp only [run] at h
  split at h
  · rename_i hle
    obtain ⟨r, h1, h2⟩ := Option.map_eq_some_iff.1 h
    exact ⟨hle, r, h2.symm, h1⟩
  · cases h

theorem works_cons (i : Nat) (now : Int) (l : List Svc) (r : List (Int × List Bool)) (s : Svc) (hs : l[i]? = some s) :
    works i ((now, l.map (fun s => due s now)) :: r) = if due s now then now :: works i r else works i r := by
  have h1 : (l.map (fun s => due s now)).getD i false = due s now := by
    rw [List.getD_eq_getElem?_getD, List.getElem?_map, hs]
    rfl
  unfold works
  rw [List.filter_cons]
  simp only [h1]
  split <;> rfl

theorem period_key (ts : List Int) : ∀ (l : List Svc) (latest t : Int) (tr : List (Int × List Bool)) (i : Nat) (s : Svc),
    List.Pairwise (· ≤ ·) (t :: ts) → run l latest ts = some tr → l[i]? = some s → 0 < s.interval → s.last ≤ t → latest ≤ s.last + s.interval →
    Every s.interval s.last (works i tr) := by
  induction ts with
  | nil =>
    intro l latest t tr i s _ h _ _ _ _
    cases h
    trivial
  | cons now ts ih =>
    intro l latest t tr i s hp h hs hi hl hlat
    obtain ⟨hle, r, htr, hr⟩ := run_cons l latest now ts tr h
    have htn : t ≤ now := by
      rw [List.pairwise_cons] at hp
      exact hp.1 now (List.mem_cons_self ..)
    have hpt : List.Pairwise (· ≤ ·) (now :: ts) := by
      rw [List.pairwise_cons] at hp
      exact hp.2
    rw [htr, works_cons i now l r s hs]
    have hw : (work now l)[i]? = some (if due s now then { s with last := now } else s) := by
      unfold work
      rw [List.getElem?_map, hs]
      rfl
    have hdue : due s now = true ↔ now = s.last + s.interval := by
      unfold due
      simp only [Bool.and_eq_true, decide_eq_true_eq]
      omega
    by_cases hd : due s now = true
    · rw [if_pos hd] at hw ⊢
      refine ⟨hdue.1 hd, ?_⟩
      have hmem := List.mem_of_getElem? hw
      have hwe := (wait_exact now (work now l)).1 _ hmem (by show 0 ≤ s.interval; omega)
      exact ih (work now l) _ now r i { s with last := now } hpt hr hw hi (Int.le_refl _) (by show _ ≤ now + s.interval; simp only at hwe; omega)
    · rw [if_neg hd] at hw ⊢
      have hmem := List.mem_of_getElem? hw
      have hwe := (wait_exact now (work now l)).1 _ hmem (by omega)
      exact ih (work now l) _ now r i s hpt hr hw hi (by omega) (by
        have : now ≠ s.last + s.interval := fun q => hd (hdue.2 q)
        omega)

/-- **Every service works exactly once per interval**: whatever other services there are and however often the thread is woken up
earlier, the times at which a service with a positive interval works are exactly one interval apart. -/
theorem exact_period (l : List Svc) (t0 : Int) (ts : List Int) (tr : List (Int × List Bool)) (i : Nat) (s : Svc) (hs : l[i]? = some s) (hi : 0 < s.interval)
    (h0 : s.last = t0)
    (hp : List.Pairwise (· ≤ ·) (t0 :: ts)) (h : run l (t0 + max 0 (waitInterval t0 l)) ts = some tr) : Every s.interval t0 (works i tr) := by
  have hmem := List.mem_of_getElem? hs
  have hwe := (wait_exact t0 l).1 s hmem (by omega)
  have := period_key ts l _ t0 tr i s hp h hs hi (by omega) (by omega)
  rw [h0] at this
  exact this

/-- **A service which sleeps does not work.** -/
theorem sleeps (s : Svc) (h : s.interval < 0) (now : Int) : due s now = false := by
  unfold due
  rw [decide_eq_false (by omega), Bool.false_and]

/-- **A service which asks for it works at every turn.** -/
theorem now_works (s : Svc) (h : s.interval = 0) (now : Int) : due s now = true := by
  unfold due
  rw [h]
  simp

/-- **Whatever happens to the clock, no service waits for two intervals**: if the clock is set back by `d` right after the last work,
the service is due again within less than two intervals of real time. -/
theorem clock_back (s : Svc) (hi : 0 < s.interval) (d : Int) (hd : 0 ≤ d) :
    ∃ x, 0 ≤ x ∧ x < 2 * s.interval ∧ due s (s.last + x - d) = true := by
  unfold due
  simp only [Bool.and_eq_true, decide_eq_true_eq]
  by_cases h : s.interval ≤ d
  · exact ⟨0, by omega, by omega, by omega, by omega⟩
  · exact ⟨s.interval + d, by omega, by omega, by omega, by omega⟩

/-- **The scheduler works at full minutes**: its next work after `now` is the first full minute after it. -/
theorem at_full_minutes (now : Int) (h0 : 0 ≤ now) : (now + schedulerInterval now) % 60 = 0 ∧ 0 < schedulerInterval now ∧ schedulerInterval now ≤ 60 ∧
    ∀ m, now < m → m % 60 = 0 → now + schedulerInterval now ≤ m := by
  unfold schedulerInterval
  rw [Calendar.timegm_civil]
  have h1 : ((now / 86400).toNat : Int) = now / 86400 := by omega
  rw [h1]
  refine ⟨by omega, by omega, by omega, ?_⟩
  intro m h1 h2
  omega

/-! ## Example -/

-- the disk service every second, the scheduler once per minute, a sleeping one; woken up at 1001 for nothing
def exSvcs : List Svc := [⟨10, 1000⟩, ⟨60, 1000⟩, ⟨-1, 0⟩]

example : (run exSvcs (1000 + max 0 (waitInterval 1000 exSvcs)) [1001, 1010, 1020, 1030, 1040, 1050, 1060, 1070]).map (fun tr => (works 0 tr, works 1 tr, works 2 tr)) =
    some ([1010, 1020, 1030, 1040, 1050, 1060, 1070], [1060], []) := by decide +kernel

example : schedulerInterval 100007 = 13 := by decide +kernel

-- a later turn is not possible
example : run exSvcs (1000 + max 0 (waitInterval 1000 exSvcs)) [1001, 1011] = none := by decide +kernel

end Verif.Service
