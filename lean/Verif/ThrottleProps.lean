import Verif.Throttle
import Verif.SpeedProps

/-! Properties of the speed limit (C128). -/

namespace Verif.Throttle
open Verif.Quota

/-! ## Specification -/

/-- The bytes which arrive in the second `t`. -/
def received (t : Int) (evs : List Ev) : Int :=
  (evs.map (fun e => match e with | .recv now _ b => if now = t then b else 0 | _ => 0)).sum

/-- The bytes which arrive at all. -/
def receivedAll (evs : List Ev) : Int := (evs.map (fun e => match e with | .recv _ _ b => b | _ => 0)).sum

/-- The connection an event belongs to is one of `n`. -/
def Conn (n : Nat) : Ev → Prop
  | .check _ i => i < n
  | .recv _ i _ => i < n
  | .fail _ i => i < n
  | .idle _ => True

/-- The clock does not go back. -/
def Steady : Int → List Ev → Prop
  | _, [] => True
  | t, e :: l => t ≤ e.now ∧ Steady e.now l

/-! ## Proof -/

theorem card : ∀ (n : Nat) (l : List Nat), l.Nodup → (∀ i ∈ l, i < n) → l.length ≤ n := by
  intro n
  induction n with
  | zero =>
    intro l _ h
    cases l with
    | nil => exact Nat.le_refl _
    | cons a l => exact absurd (h a (List.mem_cons_self ..)) (Nat.not_lt_zero a)
  | succ n ih =>
    intro l h1 h2
    have h3 := ih (l.erase n) (h1.erase n) (by
      intro i hi
      have := h2 i (List.mem_of_mem_erase hi)
      have hne : i ≠ n := fun q => (List.Nodup.not_mem_erase h1) (q ▸ hi)
      omega)
    have h4 := List.length_erase (a := n) (l := l)
    split at h4 <;> omega

structure Inv (n : Nat) (L t : Int) (s : S) : Prop where
  ok : MeterOk s.meter
  limit : s.limit = L
  nodup : s.passed.Nodup
  conn : ∀ i ∈ s.passed, i < n
  notLater : s.meter.curSecTime ≤ t
  bound : momentarySpeed s.meter t + s.passed.length * piece ≤ L + n * piece

theorem momentary_later (m : Meter) (t : Int) (h : m.curSecTime < t) : momentarySpeed m t = 0 := by
  unfold momentarySpeed; rw [if_neg (by omega)]

/-- Time goes on and nothing happens. -/
theorem Inv.later {n : Nat} {L t t' : Int} {s : S} (hL : 0 ≤ L) (h : Inv n L t s) (htt : t ≤ t') : Inv n L t' s := by
  refine ⟨h.ok, h.limit, h.nodup, h.conn, by have := h.notLater; omega, ?_⟩
  by_cases hx : t = t'
  · rw [← hx]; exact h.bound
  · rw [momentary_later s.meter t' (by have := h.notLater; omega)]
    have := card n s.passed h.nodup h.conn
    unfold piece
    omega

theorem step_inv {n : Nat} {L t : Int} {s s1 : S} (hL : 0 < L) (e : Ev) (h : Inv n L t s) (ht : t ≤ e.now) (hc : Conn n e) (hs : step s e = some s1) :
    Inv n L e.now s1 ∧ ∀ u, e.now ≤ u → momentarySpeed s1.meter u = momentarySpeed s.meter u + received u [e] := by
  have hi := h.later (by omega) ht
  cases e with
  | check now i =>
    simp only [step] at hs
    split at hs
    · cases hs
    · rename_i hni
      split at hs
      · cases hs
        exact ⟨hi, fun u _ => by simp [received]⟩
      · rename_i hw
        cases hs
        refine ⟨⟨hi.ok, hi.limit, ?_, ?_, hi.notLater, ?_⟩, fun u _ => by simp [received]⟩
        · rw [List.nodup_cons]
          exact ⟨by simpa using hni, hi.nodup⟩
        · intro j hj
          rcases List.mem_cons.1 hj with q | q
          · rw [q]; exact hc
          · exact hi.conn j q
        · have hm : momentarySpeed s.meter now ≤ L := by
            unfold wait at hw
            rw [hi.limit] at hw
            simp only [Bool.and_eq_true, Bool.or_eq_true, decide_eq_true_eq] at hw
            refine Classical.byContradiction fun q => hw ⟨hL, Or.inr ?_⟩
            omega
          have hcard := card n (i :: s.passed) (by rw [List.nodup_cons]; exact ⟨by simpa using hni, hi.nodup⟩) (by
            intro j hj
            rcases List.mem_cons.1 hj with q | q
            · rw [q]; exact hc
            · exact hi.conn j q)
          show momentarySpeed s.meter now + ((i :: s.passed).length : Int) * piece ≤ L + n * piece
          unfold piece
          omega
  | recv now i b =>
    simp only [step] at hs
    split at hs
    · rename_i hb
      simp only [Bool.and_eq_true, decide_eq_true_eq] at hb
      obtain ⟨m, hm, hs⟩ := Option.map_eq_some_iff.1 hs
      subst hs
      obtain ⟨m', e', k', _, _, _, c1, c2⟩ := addSpeed_ok s.meter now b hi.ok
      rw [hm] at e'
      cases e'
      have hmo : momentarySpeed m now = momentarySpeed s.meter now + b := by
        unfold momentarySpeed
        rw [c1, if_pos rfl, c2]
      have hin : i ∈ s.passed := by simpa using hb.1.1
      have hlen := List.length_erase_of_mem hin
      have hpos := List.length_pos_of_mem hin
      refine ⟨⟨k', hi.limit, hi.nodup.erase i, fun j hj => hi.conn j (List.mem_of_mem_erase hj), by show m.curSecTime ≤ now; omega, ?_⟩, ?_⟩
      · show momentarySpeed m now + ((s.passed.erase i).length : Int) * piece ≤ L + n * piece
        have := hi.bound
        simp only [Ev.now] at this
        rw [hmo, hlen]
        unfold piece at *
        omega
      · intro u hu
        show momentarySpeed m u = momentarySpeed s.meter u + received u [.recv now i b]
        simp only [received, List.map_cons, List.map_nil, List.sum_cons, List.sum_nil, Int.add_zero]
        by_cases hx : now = u
        · rw [if_pos hx, ← hx]; exact hmo
        · simp only [Ev.now] at hu
          have hnl := hi.notLater
          simp only [Ev.now] at hnl
          rw [if_neg hx, momentary_later m u (by omega), momentary_later s.meter u (by omega)]
          rfl
    · cases hs
  | fail now i =>
    simp only [step] at hs
    split at hs
    · rename_i hin
      cases hs
      have hin : i ∈ s.passed := by simpa using hin
      have hlen := List.length_erase_of_mem hin
      refine ⟨⟨hi.ok, hi.limit, hi.nodup.erase i, fun j hj => hi.conn j (List.mem_of_mem_erase hj), hi.notLater, ?_⟩, fun u _ => by simp [received]⟩
      have := hi.bound
      show momentarySpeed s.meter now + ((s.passed.erase i).length : Int) * piece ≤ L + n * piece
      simp only [Ev.now] at this
      rw [hlen]
      unfold piece at *
      omega
    · cases hs
  | idle now =>
    simp only [step] at hs
    obtain ⟨m, hm, hs⟩ := Option.map_eq_some_iff.1 hs
    subst hs
    obtain ⟨m', e', k', _, _, _, c1, c2⟩ := addSpeed_ok s.meter now 0 hi.ok
    rw [hm] at e'
    cases e'
    have hmo : momentarySpeed m now = momentarySpeed s.meter now := by
      unfold momentarySpeed
      rw [c1, if_pos rfl, c2, Int.add_zero]
    refine ⟨⟨k', hi.limit, hi.nodup, hi.conn, by show m.curSecTime ≤ now; omega, ?_⟩, ?_⟩
    · show momentarySpeed m now + (s.passed.length : Int) * piece ≤ L + n * piece
      rw [hmo]; exact hi.bound
    · intro u hu
      show momentarySpeed m u = momentarySpeed s.meter u + received u [.idle now]
      simp only [received, List.map_cons, List.map_nil, List.sum_cons, List.sum_nil, Int.add_zero]
      by_cases hx : now = u
      · rw [← hx]; exact hmo
      · simp only [Ev.now] at hu
        have hnl := hi.notLater
        simp only [Ev.now] at hnl
        rw [momentary_later m u (by omega), momentary_later s.meter u (by omega)]

theorem received_cons (u : Int) (e : Ev) (l : List Ev) : received u (e :: l) = received u [e] + received u l := by
  simp only [received, List.map_cons, List.map_nil, List.sum_cons, List.sum_nil, Int.add_zero]

theorem received_later (l : List Ev) : ∀ (t u : Int), Steady t l → u < t → received u l = 0 := by
  induction l with
  | nil => intro t u _ _; rfl
  | cons e l ih =>
    intro t u h hu
    rw [received_cons, ih e.now u h.2 (by have := h.1; omega)]
    have := h.1
    cases e with
    | recv now i b =>
      simp only [received, List.map_cons, List.map_nil, List.sum_cons, List.sum_nil, Int.add_zero]
      simp only [Ev.now] at this
      rw [if_neg (by omega)]
    | _ => rfl

theorem run_cons (s s' : S) (e : Ev) (l : List Ev) (h : run s (e :: l) = some s') : ∃ s1, step s e = some s1 ∧ run s1 l = some s' := by
  simp only [run] at h
  cases he : step s e with
  | none => rw [he] at h; cases h
  | some s1 => rw [he] at h; exact ⟨s1, rfl, h⟩

theorem run_bound (n : Nat) (L : Int) (hL : 0 < L) (evs : List Ev) : ∀ (s s' : S) (t : Int), Inv n L t s → Steady t evs → (∀ e ∈ evs, Conn n e) →
    run s evs = some s' → ∀ u, t ≤ u → momentarySpeed s.meter u + received u evs ≤ L + n * piece := by
  induction evs with
  | nil =>
    intro s s' t h _ _ _ u hu
    have hb := (h.later (by omega) hu).bound
    have : received u [] = 0 := rfl
    rw [this]
    unfold piece at *
    omega
  | cons e l ih =>
    intro s s' t h hst hc hr u hu
    obtain ⟨s1, hs, hl⟩ := run_cons s s' e l hr
    obtain ⟨h1, h2⟩ := step_inv hL e h hst.1 (hc e (List.mem_cons_self ..)) hs
    by_cases hx : e.now ≤ u
    · have := ih s1 s' e.now h1 hst.2 (fun x hx => hc x (List.mem_cons_of_mem _ hx)) hl u hx
      rw [h2 u hx] at this
      rw [received_cons]
      omega
    · have h0 : received u (e :: l) = 0 := by
        rw [received_cons, received_later l e.now u hst.2 (by omega)]
        cases e with
        | recv now i b =>
          simp only [received, List.map_cons, List.map_nil, List.sum_cons, List.sum_nil, Int.add_zero]
          simp only [Ev.now] at hx
          rw [if_neg (by omega)]
        | _ => rfl
      have hb := (h.later (by omega) hu).bound
      rw [h0]
      unfold piece at *
      omega

theorem start_inv (n : Nat) (L now all : Int) (h0 : 0 ≤ now) (hL : 0 ≤ L) : Inv n L now (start now all L) := by
  refine ⟨reset_ok now all, rfl, List.nodup_nil, (fun i hi => nomatch hi), h0, ?_⟩
  have h1 : momentarySpeed (start now all L).meter now = 0 := by
    unfold momentarySpeed start resetSpeed
    dsimp only
    split <;> rfl
  rw [h1]
  show 0 + ((0 : Nat) : Int) * piece ≤ L + n * piece
  unfold piece
  omega

/-! ## The limit -/

/-- **The limit holds in every second**: with `n` connections, whatever they receive and in whatever order they run, in no second
more bytes arrive than the limit and one piece for each connection. -/
theorem limit_holds (n : Nat) (L t0 all : Int) (h0 : 0 ≤ t0) (hL : 0 < L) (evs : List Ev) (s' : S) (hr : run (start t0 all L) evs = some s')
    (hst : Steady t0 evs) (hc : ∀ e ∈ evs, Conn n e) (t : Int) : received t evs ≤ L + n * 4096 := by
  by_cases ht : t0 ≤ t
  · have := run_bound n L hL evs _ s' t0 (start_inv n L t0 all h0 (by omega)) hst hc hr t ht
    have h1 : momentarySpeed (start t0 all L).meter t = 0 := by
      unfold momentarySpeed start resetSpeed
      dsimp only
      split <;> rfl
    rw [h1] at this
    unfold piece at this
    omega
  · rw [received_later evs t0 t hst (by omega)]
    omega

theorem received_split (evs : List Ev) : ∀ (t0 : Int) (k : Nat), Steady t0 evs → (∀ e ∈ evs, e.now < t0 + k) →
    receivedAll evs = ((List.range k).map (fun j => received (t0 + (j : Nat)) evs)).sum := by
  intro t0 k hst hlt
  have h1 : ∀ (e : Ev), t0 ≤ e.now → e.now < t0 + k → receivedAll [e] = ((List.range k).map (fun j => received (t0 + (j : Nat)) [e])).sum := by
    intro e h2 h3
    cases e with
    | recv now i b =>
      simp only [Ev.now] at h2 h3
      have : ∀ (k : Nat), ((List.range k).map (fun j => received (t0 + (j : Nat)) [.recv now i b])).sum = if now < t0 + k then b else 0 := by
        intro k
        induction k with
        | zero => rw [if_neg (by omega)]; rfl
        | succ k ih =>
          rw [List.range_succ, List.map_append, List.sum_append, ih]
          simp only [received, List.map_cons, List.map_nil, List.sum_cons, List.sum_nil, Int.add_zero]
          by_cases hx : now < t0 + (k : Nat)
          · rw [if_pos hx, if_neg (by omega), if_pos (by omega)]; omega
          · by_cases hy : now = t0 + (k : Nat)
            · rw [if_neg hx, if_pos hy, if_pos (by omega)]; omega
            · rw [if_neg hx, if_neg hy, if_neg (by omega)]; rfl
      rw [this k, if_pos h3]
      simp [receivedAll]
    | _ =>
      have : ∀ (k : Nat), ((List.range k).map (fun _ => (0 : Int))).sum = 0 := by
        intro k
        induction k with
        | zero => rfl
        | succ k ih => rw [List.range_succ, List.map_append, List.sum_append, ih]; rfl
      exact (this k).symm
  have hsum : ∀ (k : Nat) (f g : Nat → Int), ((List.range k).map (fun j => f j + g j)).sum = ((List.range k).map f).sum + ((List.range k).map g).sum := by
    intro k f g
    induction k with
    | zero => rfl
    | succ k ih =>
      simp only [List.range_succ, List.map_append, List.sum_append, ih, List.map_cons, List.map_nil, List.sum_cons, List.sum_nil]
      omega
  induction evs generalizing t0 with
  | nil =>
    show (0 : Int) = _
    have : ∀ (k : Nat), ((List.range k).map (fun _ => (0 : Int))).sum = 0 := by
      intro k
      induction k with
      | zero => rfl
      | succ k ih => rw [List.range_succ, List.map_append, List.sum_append, ih]; rfl
    exact (this k).symm
  | cons e l ih =>
    have hmono : ∀ (l : List Ev) (a b : Int), Steady a l → b ≤ a → Steady b l := by
      intro l a b h hb
      cases l with
      | nil => trivial
      | cons x l => exact ⟨by have := h.1; omega, h.2⟩
    have hl := ih t0 (hmono l e.now t0 hst.2 hst.1) (fun x hx => hlt x (List.mem_cons_of_mem _ hx)) h1
    have he := h1 e hst.1 (hlt e (List.mem_cons_self ..))
    have h4 : receivedAll (e :: l) = receivedAll [e] + receivedAll l := by
      simp only [receivedAll, List.map_cons, List.map_nil, List.sum_cons, List.sum_nil, Int.add_zero]
    rw [h4, he, hl, ← hsum]
    congr 1
    apply List.map_congr_left
    intro j _
    exact (received_cons _ e l).symm

/-- **… and so in every number of seconds.** -/
theorem limit_holds_long (n : Nat) (L t0 all : Int) (h0 : 0 ≤ t0) (hL : 0 < L) (evs : List Ev) (s' : S) (hr : run (start t0 all L) evs = some s')
    (hst : Steady t0 evs) (hc : ∀ e ∈ evs, Conn n e) (k : Nat) (hk : ∀ e ∈ evs, e.now < t0 + k) : receivedAll evs ≤ k * (L + n * 4096) := by
  rw [received_split evs t0 k hst hk]
  have hall := fun t => limit_holds n L t0 all h0 hL evs s' hr hst hc t
  clear hk
  induction k with
  | zero => simp
  | succ k ih =>
    rw [List.range_succ, List.map_append, List.sum_append]
    simp only [List.map_cons, List.map_nil, List.sum_cons, List.sum_nil, Int.add_zero]
    have := hall (t0 + (k : Nat))
    have h5 : ((k + 1 : Nat) : Int) * (L + n * 4096) = k * (L + n * 4096) + (L + n * 4096) := by
      rw [Int.natCast_add, Int.add_mul]; omega
    omega

/-- **Nobody waits without a limit.** -/
theorem no_limit (s : S) (h : s.limit ≤ 0) (now : Int) : wait s now = false := by
  unfold wait
  rw [decide_eq_false (by omega), Bool.false_and]

/-- **Nobody waits for ever**: when nothing arrives any more, everyone may go on as soon as the bytes of the last 30 seconds, divided
by the time since they began to arrive, are within the limit. The wait of the current second ends with it. -/
theorem wait_ends (s : S) (hL : 0 < s.limit) (now : Int) (h1 : s.meter.curSecTime < now) (h2 : 0 ≤ s.meter.total) (h3 : 0 ≤ now) (h4 : now < 2 ^ 31)
    (h5 : s.meter.start < now) (h6 : s.meter.total ≤ s.limit * (now - s.meter.start)) : wait s now = false := by
  have h7 : Volume.toI32 now = now := by
    unfold Volume.toI32
    rw [Int.bmod_eq_of_le (by omega) (by omega)]
  unfold wait
  rw [momentary_later s.meter now h1]
  have h8 : currentSpeed s.meter s.standBy now ≤ s.limit := by
    unfold currentSpeed
    split
    · omega
    · dsimp only
      rw [h7, if_neg (by omega), Int.tdiv_eq_ediv_of_nonneg h2]
      refine Int.ediv_le_of_le_mul (by omega) ?_
      exact h6
  rw [decide_eq_false (by omega : ¬ currentSpeed s.meter s.standBy now > s.limit), decide_eq_false (by omega : ¬ (0 : Int) > s.limit)]
  simp

/-! ## Examples -/

/-- Two connections, 5000 bytes per second: the second piece of the first one still passes, then both must wait until the next second. -/
def exEvs : List Ev := [.check 100 0, .check 100 1, .recv 100 0 4096, .check 100 0, .recv 100 1 4096, .recv 100 0 4096, .check 100 0, .check 100 1,
  .idle 100, .check 103 1, .recv 103 1 100]

example : (run (start 100 0 5000) exEvs).map (fun s => (s.passed, s.meter.all)) = some ([], 12388) := by decide +kernel

-- `limit_holds` is as good as it can be: 12288 of at most 13192 bytes
example : received 100 exEvs = 12288 ∧ Steady 100 exEvs ∧ (∀ e ∈ exEvs, Conn 2 e) := by
  refine ⟨by decide +kernel, ?_, ?_⟩
  · simp [Steady, exEvs, Ev.now]
  · simp [Conn, exEvs]

-- `wait_ends`: at 100 everyone waits, at 103 nobody does
example : (run (start 100 0 5000) (exEvs.take 9)).map (fun s => (wait s 100, wait s 103, s.meter.total, s.meter.start)) = some (true, false, 12288, 100) := by
  decide +kernel

/-- **When the clock is set back the average does not limit any more**: it is negative until the clock reaches the old time, and
only the bytes of the current second are looked at. -/
theorem clock_back : ∃ evs s', run (start 4000 0 1000) evs = some s' ∧ currentSpeed s'.meter false 400 < 0 ∧ s'.meter.total > 5000 ∧ wait s' 400 = false ∧ wait s' 4001 = true :=
  ⟨[.check 4000 0, .check 4000 1, .recv 4000 0 4096, .recv 4000 1 4096], _, rfl, by decide +kernel, by decide +kernel, by decide +kernel, by decide +kernel⟩

end Verif.Throttle
