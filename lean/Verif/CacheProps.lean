import Verif.Cache
/-! C31: the accounting of the article cache. -/
namespace Verif.Cache

/-- Sum of the sizes of the live segments. -/
def total (l : List Nat) : Int := (l.sum : Nat)

theorem total_append (l : List Nat) (n : Nat) : total (l ++ [n]) = total l + n := by
  simp [total]

theorem total_set (l : List Nat) (i n m : Nat) (h : l[i]? = some m) : total (l.set i n) = total l + ((n : Int) - m) := by
  induction l generalizing i with
  | nil => simp at h
  | cons x l ih =>
    cases i with
    | zero =>
      simp only [List.getElem?_cons_zero, Option.some.injEq] at h
      subst h
      simp only [List.set_cons_zero, total, List.sum_cons]; omega
    | succ i =>
      have := ih i (by simpa using h)
      simp only [List.set_cons_succ, total, List.sum_cons] at this ⊢; omega

theorem total_erase (l : List Nat) (i m : Nat) (h : l[i]? = some m) : total (l.eraseIdx i) = total l - m := by
  induction l generalizing i with
  | nil => simp at h
  | cons x l ih =>
    cases i with
    | zero =>
      simp only [List.getElem?_cons_zero, Option.some.injEq] at h
      subst h
      simp only [List.eraseIdx_cons_zero, total, List.sum_cons]; omega
    | succ i =>
      have := ih i (by simpa using h)
      simp only [List.eraseIdx_cons_succ, total, List.sum_cons] at this ⊢; omega

theorem step_total (c : Cfg) (s : Cache) (op : Op) (h : s.allocated = total s.segs) :
    (step c s op).allocated = total (step c s op).segs := by
  cases op with
  | alloc size mem =>
    unfold step alloc; dsimp only
    by_cases hc : s.allocated + size ≤ c.limit ∧ mem = true
    · rw [if_pos hc]; show s.allocated + size = total (s.segs ++ [size]); rw [total_append, h]
    · rw [if_neg hc]; exact h
  | realloc i n mem =>
    unfold step realloc; dsimp only
    cases hs : s.segs[i]? with
    | none => exact h
    | some size =>
      dsimp only
      by_cases hm : mem = true
      · rw [if_pos hm]; show s.allocated + _ = total (s.segs.set i n); rw [total_set _ _ _ _ hs, h]
      · rw [if_neg hm]; exact h
  | free i =>
    unfold step free; dsimp only
    cases hs : s.segs[i]? with
    | none => exact h
    | some size =>
      dsimp only
      by_cases hz : size ≠ 0
      · rw [if_pos hz]; show s.allocated - size = total (s.segs.eraseIdx i); rw [total_erase _ _ _ hs, h]
      · rw [if_neg hz]; show s.allocated = total (s.segs.eraseIdx i)
        rw [total_erase _ _ _ hs, h]; omega

theorem run_inv (c : Cfg) (P : Cache → Prop) (ok : Op → Prop) (ops : List Op) (hops : ∀ op ∈ ops, ok op) (h0 : P {})
    (hs : ∀ s op, ok op → P s → P (step c s op)) : P (run c ops) := by
  unfold run
  generalize ({} : Cache) = s at h0
  induction ops generalizing s with
  | nil => exact h0
  | cons op ops ih =>
    rw [List.foldl_cons]
    exact ih (fun o ho => hops o (List.mem_cons_of_mem _ ho)) _ (hs s op (hops op (List.mem_cons_self ..)) h0)

/-- C31 (accounting): after every history of allocations, resizings and releases, successful or not, the
amount of memory the cache believes to hold is the sum of the sizes of the live segments. -/
theorem accounting_exact (c : Cfg) (ops : List Op) : (run c ops).allocated = total (run c ops).segs :=
  run_inv c (fun s => s.allocated = total s.segs) (fun _ => True) ops (fun _ _ => trivial) rfl (fun s op _ h => step_total c s op h)

example : run ⟨1000, true⟩ [.alloc 300 true, .alloc 500 true, .alloc 300 true, .realloc 1 450 true, .alloc 200 false, .free 0] =
    { allocated := 450, flag := true, segs := [450] } := by decide +kernel

/-- C31 (limit): an allocation that succeeds leaves the amount within the limit, one that fails changes
nothing. -/
theorem alloc_within_limit (c : Cfg) (s : Cache) (size : Nat) (mem : Bool) :
    ((alloc c s size mem).2 = true → (alloc c s size mem).1.allocated ≤ c.limit ∧
      (alloc c s size mem).1.segs = s.segs ++ [size]) ∧
    ((alloc c s size mem).2 = false → (alloc c s size mem).1 = s) := by
  unfold alloc
  by_cases hc : s.allocated + size ≤ c.limit ∧ mem = true
  · rw [if_pos hc]; exact ⟨fun _ => ⟨hc.1, rfl⟩, fun h => nomatch h⟩
  · rw [if_neg hc]; exact ⟨(fun h => nomatch h), fun _ => rfl⟩

/-- An allocation is refused only for lack of memory or because the limit would be exceeded. -/
theorem alloc_refused (c : Cfg) (s : Cache) (size : Nat) (mem : Bool) :
    (alloc c s size mem).2 = false ↔ (c.limit : Int) < s.allocated + size ∨ mem = false := by
  unfold alloc
  by_cases hc : s.allocated + size ≤ c.limit ∧ mem = true
  · rw [if_pos hc]
    constructor
    · intro h; nomatch h
    · rintro (h | h)
      · omega
      · rw [hc.2] at h; nomatch h
  · rw [if_neg hc]
    constructor
    · intro _
      by_cases h1 : s.allocated + size ≤ c.limit
      · right; cases hm : mem
        · rfl
        · exact absurd ⟨h1, hm⟩ hc
      · left; omega
    · intro _; rfl

example : (alloc ⟨1000, true⟩ { allocated := 700, flag := true, segs := [700] } 301 true).2 = false ∧
    (alloc ⟨1000, true⟩ { allocated := 700, flag := true, segs := [700] } 300 true).2 = true := by decide

/-- Segments are resized to at most their size: the article was no larger than announced. -/
def Shrinks : List Nat → List Op → Prop
  | _, [] => True
  | l, .alloc size _ :: r => Shrinks (l ++ [size]) r ∧ Shrinks l r
  | l, .realloc i n _ :: r => (∀ m, l[i]? = some m → n ≤ m) ∧ Shrinks (l.set i n) r ∧ Shrinks l r
  | l, .free i :: r => Shrinks (l.eraseIdx i) r

theorem shrinks_foldl (c : Cfg) : ∀ (ops : List Op) (s : Cache), Shrinks s.segs ops → s.allocated ≤ c.limit →
    (ops.foldl (step c) s).allocated ≤ c.limit
  | [], s, _, h => h
  | .alloc size mem :: r, s, hs, h => by
    rw [List.foldl_cons]
    have hw := alloc_within_limit c s size mem
    show (List.foldl (step c) (alloc c s size mem).1 r).allocated ≤ _
    cases hb : (alloc c s size mem).2 with
    | true =>
      have := hw.1 hb
      exact shrinks_foldl c r _ (by rw [this.2]; exact hs.1) this.1
    | false => rw [hw.2 hb]; exact shrinks_foldl c r _ hs.2 h
  | .realloc i n mem :: r, s, hs, h => by
    rw [List.foldl_cons]
    show (List.foldl (step c) (realloc s i n mem).1 r).allocated ≤ _
    unfold realloc
    cases hg : s.segs[i]? with
    | none => exact shrinks_foldl c r _ hs.2.2 h
    | some m =>
      dsimp only
      by_cases hm : mem = true
      · rw [if_pos hm]
        have := hs.1 m hg
        exact shrinks_foldl c r _ hs.2.1 (show s.allocated + ((n : Int) - m) ≤ _ by omega)
      · rw [if_neg hm]; exact shrinks_foldl c r _ hs.2.2 h
  | .free i :: r, s, hs, h => by
    rw [List.foldl_cons]
    show (List.foldl (step c) (free c s i) r).allocated ≤ _
    unfold free
    cases hg : s.segs[i]? with
    | none =>
      have : s.segs.eraseIdx i = s.segs := List.eraseIdx_of_length_le (by simpa using hg)
      exact shrinks_foldl c r _ (this ▸ hs) h
    | some m =>
      dsimp only
      by_cases hz : m ≠ 0
      · rw [if_pos hz]; exact shrinks_foldl c r _ hs (show s.allocated - m ≤ _ by omega)
      · rw [if_neg hz]; exact shrinks_foldl c r _ hs h

/-- C31 (limit), over whole histories: as long as no article turns out to be larger than announced, the
cache never holds more than the configured amount. -/
theorem within_limit_partial (c : Cfg) (ops : List Op) (h : Shrinks [] ops) : (run c ops).allocated ≤ c.limit :=
  shrinks_foldl c ops {} h (by show (0 : Int) ≤ _; omega)

example : Shrinks [] [.alloc 300 true, .alloc 500 false, .realloc 0 300 true, .realloc 0 250 true, .free 0] := by
  simp [Shrinks]

/-- Without that condition the limit does not hold: a single article may take the cache over any limit,
by any amount (Writer: `mislabelled_article` shows such an article). -/
theorem limit_exceeded (c : Cfg) (hc : 0 < c.limit) (n : Nat) :
    ∃ ops, (run c ops).allocated = c.limit + n := by
  refine ⟨[.alloc 1 true, .realloc 0 (c.limit + n) true], ?_⟩
  unfold run
  simp only [List.foldl_cons, List.foldl_nil, step]
  have : ((0 : Int) + 1 ≤ c.limit ∧ true = true) := ⟨by omega, rfl⟩
  unfold alloc
  rw [if_pos (show ({} : Cache).allocated + ((1 : Nat) : Int) ≤ c.limit ∧ true = true from this)]
  simp [realloc]; omega

/-- Announced and received sizes are positive. -/
def Positive : Op → Prop
  | .alloc size _ => 0 < size
  | .realloc _ n _ => 0 < n
  | .free _ => True

theorem sum_zero_of_pos (l : List Nat) (hp : ∀ x ∈ l, 0 < x) (h : total l = 0) : l = [] := by
  cases l with
  | nil => rfl
  | cons x l =>
    have := hp x (List.mem_cons_self ..)
    simp only [total, List.sum_cons] at h; omega

/-- The invariant behind the flag file. -/
def FlagInv (c : Cfg) (s : Cache) : Prop :=
  s.allocated = total s.segs ∧ (∀ x ∈ s.segs, 0 < x) ∧ s.flag = (c.server && !s.segs.isEmpty) ∧ s.leaked = 0

theorem step_flag (c : Cfg) (s : Cache) (op : Op) (hop : Positive op) (h : FlagInv c s) : FlagInv c (step c s op) := by
  obtain ⟨h1, h2, h3, h4⟩ := h
  refine ⟨step_total c s op h1, ?_⟩
  have hpos : s.segs ≠ [] → s.allocated ≠ 0 := by
    intro hne h0; exact hne (sum_zero_of_pos _ h2 (h1 ▸ h0))
  cases op with
  | alloc size mem =>
    unfold step alloc; dsimp only
    by_cases hc : s.allocated + size ≤ c.limit ∧ mem = true
    · rw [if_pos hc]
      refine ⟨?_, ?_, h4⟩
      · intro x hx
        rcases List.mem_append.mp hx with hx | hx
        · exact h2 x hx
        · rw [List.mem_singleton.mp hx]; exact hop
      · show (s.flag || (decide (s.allocated = 0) && c.server)) = _
        rw [h3]
        by_cases hne : s.segs = []
        · have : s.allocated = 0 := by rw [h1, hne]; rfl
          simp [hne, this]
        · have hb : s.segs.isEmpty = false := by exact List.isEmpty_eq_false_iff.mpr hne
          have hd : decide (s.allocated = 0) = false := by simpa using hpos hne
          simp [hb, hd]
    · rw [if_neg hc]; exact ⟨h2, h3, h4⟩
  | realloc i n mem =>
    unfold step realloc; dsimp only
    cases hs : s.segs[i]? with
    | none => exact ⟨h2, h3, h4⟩
    | some size =>
      dsimp only
      by_cases hm : mem = true
      · rw [if_pos hm]
        refine ⟨?_, ?_, h4⟩
        · intro x hx
          rcases List.mem_or_eq_of_mem_set hx with hx | hx
          · exact h2 x hx
          · rw [hx]; exact hop
        · show s.flag = _
          rw [h3]
          have : s.segs ≠ [] := by intro h0; rw [h0] at hs; simp at hs
          have hb : s.segs.isEmpty = false := by exact List.isEmpty_eq_false_iff.mpr this
          have hb2 : (s.segs.set i n).isEmpty = false := by
            rw [List.isEmpty_eq_false_iff]; intro h0; exact this (by simpa using h0)
          rw [hb, hb2]
      · rw [if_neg hm]; exact ⟨h2, h3, h4⟩
  | free i =>
    unfold step free; dsimp only
    cases hs : s.segs[i]? with
    | none => exact ⟨h2, h3, h4⟩
    | some size =>
      dsimp only
      have hsz : 0 < size := h2 size (List.mem_of_getElem? hs)
      rw [if_pos (show size ≠ 0 by omega)]
      have hpos' : ∀ x ∈ s.segs.eraseIdx i, 0 < x := fun x hx => h2 x (List.mem_of_mem_eraseIdx hx)
      refine ⟨hpos', ?_, h4⟩
      show (if s.allocated - size = 0 ∧ c.server = true then false else s.flag) = (c.server && !(s.segs.eraseIdx i).isEmpty)
      have ht : s.allocated - size = total (s.segs.eraseIdx i) := by rw [total_erase _ _ _ hs, h1]
      have hne : s.segs ≠ [] := by intro h0; rw [h0] at hs; simp at hs
      by_cases he : s.segs.eraseIdx i = []
      · have : s.allocated - size = 0 := by rw [ht, he]; rfl
        rw [he, h3]; cases c.server <;> simp [this]
      · have : s.allocated - size ≠ 0 := fun h0 => he (sum_zero_of_pos _ hpos' (ht ▸ h0))
        rw [if_neg (fun h => this h.1), h3]
        have hb : s.segs.isEmpty = false := List.isEmpty_eq_false_iff.mpr hne
        have hb2 : (s.segs.eraseIdx i).isEmpty = false := List.isEmpty_eq_false_iff.mpr he
        rw [hb, hb2]

/-- C31 (flag file): if every announced and every received size is positive then, after every history,
the flag file exists exactly while the cache holds a segment (in server mode with ContinuePartial; never
otherwise), which is exactly while the accounted amount is not zero, and no memory was lost. -/
theorem flag_file_partial (c : Cfg) (ops : List Op) (hops : ∀ op ∈ ops, Positive op) :
    ((run c ops).flag = true ↔ c.server = true ∧ (run c ops).segs ≠ []) ∧
    ((run c ops).segs ≠ [] ↔ 0 < (run c ops).allocated) ∧ (run c ops).leaked = 0 := by
  have h := run_inv c (FlagInv c) Positive ops hops ⟨rfl, by simp, by simp, rfl⟩ (step_flag c)
  refine ⟨?_, ?_, h.2.2.2⟩
  · rw [h.2.2.1]; simp
  · rw [h.1]
    constructor
    · intro hne
      have : total (run c ops).segs ≠ 0 := fun h0 => hne (sum_zero_of_pos _ h.2.1 h0)
      have : 0 ≤ total (run c ops).segs := Int.natCast_nonneg _
      omega
    · intro h0 he; rw [he] at h0; exact absurd h0 (by decide)

example : ∀ op ∈ [Op.alloc 300 true, .alloc 500 true, .realloc 0 100 true, .free 1, .free 0], Positive op := by
  intro op h; simp at h; rcases h with rfl | rfl | rfl | rfl | rfl <;> simp [Positive]
example : run ⟨1000, true⟩ [.alloc 300 true, .alloc 500 true, .realloc 0 100 true, .free 1] = { allocated := 100, flag := true, segs := [100] } ∧
    run ⟨1000, true⟩ [.alloc 300 true, .alloc 500 true, .realloc 0 100 true, .free 1, .free 0] = {} := by decide +kernel

/-- With an article announced with size 0 the flag file does not tell the truth: it exists although
nothing is cached and never goes away, the block is lost; and data can be in the cache without it. -/
theorem flag_file_wrong (c : Cfg) (hc : c.server = true) (hl : 5 ≤ c.limit) :
    (∃ ops, (run c ops).flag = true ∧ (run c ops).segs = [] ∧ (run c ops).leaked = 1) ∧
    (∃ ops, (run c ops).flag = false ∧ (run c ops).segs = [5]) := by
  have h1 : alloc c {} 0 true = ({ flag := true, segs := [0] }, true) := by
    unfold alloc; rw [if_pos ⟨by show (0 : Int) + (0 : Nat) ≤ _; omega, rfl⟩]; simp [hc]
  have h2 : alloc c { flag := true, segs := [0] } 5 true = ({ flag := true, allocated := 5, segs := [0, 5] }, true) := by
    unfold alloc; rw [if_pos ⟨by show (0 : Int) + (5 : Nat) ≤ _; omega, rfl⟩]; simp
  have h3 : free c { flag := true, allocated := 5, segs := [0, 5] } 1 = { segs := [0] } := by
    simp [free, hc, List.eraseIdx]
  constructor
  · refine ⟨[.alloc 0 true, .free 0], ?_⟩
    unfold run; simp only [List.foldl_cons, List.foldl_nil, step, h1]; simp [free]
  · refine ⟨[.alloc 0 true, .alloc 5 true, .free 1, .realloc 0 5 true], ?_⟩
    unfold run; simp only [List.foldl_cons, List.foldl_nil, step, h1, h2, h3]; simp [realloc]

end Verif.Cache
