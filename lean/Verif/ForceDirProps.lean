import Verif.ForceDir
import Verif.DelTreeProps

/-
Creating a directory creates exactly the missing directories on the way to it (C140).
-/
namespace Verif.ForceDir
open CStr DelTree

/-! ### Specification -/

/-- A path leads from a place to a place; the number counts the links on the way. -/
inductive Leads (fs : Fs) : Nat → Path → Path → Path → Prop where
  | here (h : Path) : Leads fs 0 h [] h
  | down {m : Nat} {h r q : Path} {n : Name} : kindOf fs (h ++ [n]) = some .dir → Leads fs m (h ++ [n]) r q → Leads fs m h (n :: r) q
  | file {h : Path} {n : Name} : kindOf fs (h ++ [n]) = some .file → Leads fs 0 h [n] (h ++ [n])
  | link {m : Nat} {h r q t : Path} {n : Name} : kindOf fs (h ++ [n]) = some (.link t) → Leads fs m [] (t ++ r) q → Leads fs (m + 1) h (n :: r) q

/-- The directories along `rest` below `d`. -/
def chain : (d rest : Path) → Fs
  | _, [] => []
  | d, n :: rest => (d ++ [n], .dir) :: chain (d ++ [n]) rest

/-! ### Searching -/

def next (fs : Fs) : Nat → Path → Look
  | 0 => fun _ => .loop
  | n + 1 => seek fs n

def seekFrom (fs : Fs) (n : Nat) (here rest : Path) : Look := seekWith (next fs n) fs here rest

theorem seek_eq (fs : Fs) (n : Nat) (p : Path) : seek fs n p = seekFrom fs n [] p := by
  cases n <;> rfl

theorem seekFrom_found {fs : Fs} : ∀ (n : Nat) (rest here q : Path), seekFrom fs n here rest = .found q → ∃ m, m ≤ n ∧ Leads fs m here rest q := by
  intro n
  induction n with
  | zero =>
    intro rest
    induction rest with
    | nil => intro here q h; simp only [seekFrom, seekWith, Look.found.injEq] at h; exact ⟨0, by omega, h ▸ .here _⟩
    | cons x rest ih =>
      intro here q h
      unfold seekFrom seekWith at h
      cases hk : kindOf fs (here ++ [x]) with
      | none => simp [hk] at h
      | some k =>
        cases k with
        | dir =>
          simp only [hk] at h
          obtain ⟨m, hm, hl⟩ := ih _ _ h
          exact ⟨m, hm, .down hk hl⟩
        | file =>
          simp only [hk] at h
          by_cases hr : rest = []
          · simp only [hr, if_true, Look.found.injEq] at h
            exact ⟨0, by omega, by rw [hr, ← h]; exact .file hk⟩
          · simp [hr] at h
        | link t => simp [hk, next] at h
  | succ n ihn =>
    intro rest
    induction rest with
    | nil => intro here q h; simp only [seekFrom, seekWith, Look.found.injEq] at h; exact ⟨0, by omega, h ▸ .here _⟩
    | cons x rest ih =>
      intro here q h
      unfold seekFrom seekWith at h
      cases hk : kindOf fs (here ++ [x]) with
      | none => simp [hk] at h
      | some k =>
        cases k with
        | dir =>
          simp only [hk] at h
          obtain ⟨m, hm, hl⟩ := ih _ _ h
          exact ⟨m, hm, .down hk hl⟩
        | file =>
          simp only [hk] at h
          by_cases hr : rest = []
          · simp only [hr, if_true, Look.found.injEq] at h
            exact ⟨0, by omega, by rw [hr, ← h]; exact .file hk⟩
          · simp [hr] at h
        | link t =>
          simp only [hk, next] at h
          rw [seek_eq] at h
          obtain ⟨m, hm, hl⟩ := ihn _ _ _ h
          exact ⟨m + 1, by omega, .link hk hl⟩

/-- A way to a directory is a part of every longer search. -/
theorem seekFrom_append {fs : Fs} {m : Nat} {here pre d : Path} (hl : Leads fs m here pre d) (hd : kindOf fs d = some .dir) :
    ∀ (n : Nat) (rest : Path), m ≤ n → seekFrom fs n here (pre ++ rest) = seekFrom fs (n - m) d rest := by
  induction hl with
  | here h => intro n rest _; rfl
  | down hk _ ih =>
    intro n rest hn
    rw [← ih hd n rest hn]
    simp [seekFrom, seekWith, hk]
  | file hk => rw [hk] at hd; exact absurd hd (by simp)
  | link hk _ ih =>
    rename_i m h r q t x _
    intro n rest hn
    obtain ⟨k, rfl⟩ : ∃ k, n = k + 1 := ⟨n - 1, by omega⟩
    rw [Nat.add_sub_add_right, ← ih hd k rest (by omega)]
    show seekWith _ _ _ _ = _
    simp only [List.cons_append, seekWith, hk, next]
    rw [seek_eq, List.append_assoc]

theorem seekFrom_file {fs : Fs} {m : Nat} {here pre d : Path} (hl : Leads fs m here pre d) (hh : pre ≠ []) (hd : kindOf fs d = some .file) :
    ∀ (n : Nat) (rest : Path), m ≤ n → seekFrom fs n here (pre ++ rest) = if rest = [] then .found d else .notdir := by
  induction hl with
  | here h => exact absurd rfl hh
  | down hk hl' ih =>
    rename_i m h r q x
    intro n rest hn
    by_cases hr : r = []
    · subst hr
      cases hl'
      rw [hk] at hd; exact absurd hd (by simp)
    · rw [← ih hr hd n rest hn]
      simp [seekFrom, seekWith, hk]
  | file hk =>
    intro n rest _
    simp [seekFrom, seekWith, hk]
  | link hk hl' ih =>
    rename_i m h r q t x
    intro n rest hn
    obtain ⟨k, rfl⟩ : ∃ k, n = k + 1 := ⟨n - 1, by omega⟩
    by_cases ht : t ++ r = []
    · rw [ht] at hl'
      cases hl'
      simp [kindOf] at hd
    · rw [← ih ht hd k rest (by omega)]
      show seekWith _ _ _ _ = _
      simp only [List.cons_append, seekWith, hk, next]
      rw [seek_eq, List.append_assoc]

theorem leads_found {fs : Fs} {m : Nat} {pre d : Path} (hl : Leads fs m [] pre d) (hd : kindOf fs d = some .dir) (hm : m ≤ 40) :
    seek fs 40 pre = .found d := by
  have := seekFrom_append hl hd 40 [] hm
  rw [List.append_nil] at this
  rw [seek_eq, this]; rfl

/-! ### Adding directories -/

theorem kindOf_append {fs : Fs} (e : Fs) {p : Path} {k : Kind} (h : kindOf fs p = some k) : kindOf (fs ++ e) p = some k := by
  unfold kindOf at h ⊢
  by_cases hp : p = []
  · rw [if_pos hp] at h ⊢; exact h
  · rw [if_neg hp] at h ⊢
    rw [List.find?_append]
    cases hf : fs.find? (fun e => e.1 == p) with
    | none => rw [hf] at h; simp at h
    | some x => rw [hf] at h; simpa using h

theorem kindOf_append_none {fs : Fs} (e : Fs) {p : Path} (h : kindOf fs p = none) : kindOf (fs ++ e) p = kindOf e p := by
  unfold kindOf at h ⊢
  by_cases hp : p = []
  · rw [if_pos hp] at h; simp at h
  · rw [if_neg hp] at h
    rw [if_neg hp, if_neg hp, List.find?_append]
    cases hf : fs.find? (fun e => e.1 == p) with
    | none => simp
    | some x => rw [hf] at h; simp at h

theorem leads_append {fs : Fs} (e : Fs) {m : Nat} {h r q : Path} (hl : Leads fs m h r q) : Leads (fs ++ e) m h r q := by
  induction hl with
  | here h => exact .here h
  | down hk _ ih => exact .down (kindOf_append e hk) ih
  | file hk => exact .file (kindOf_append e hk)
  | link hk _ ih => exact .link (kindOf_append e hk) ih

theorem missing_below {fs : Fs} (hw : Wf fs) {p : Path} (h : kindOf fs p = none) : ∀ s : Path, kindOf fs (p ++ s) = none := by
  intro s
  have key : ∀ (k : Nat) (s : Path), s.length = k → kindOf fs (p ++ s) = none := by
    intro k
    induction k with
    | zero => intro s hs; rw [List.length_eq_zero_iff.1 hs, List.append_nil]; exact h
    | succ k ih =>
      intro s hs
      rcases snoc_cases s with rfl | ⟨r, m, rfl⟩
      · simp at hs
      · rw [List.length_append, List.length_singleton] at hs
        have hr := ih r (by omega)
        cases hk : kindOf fs (p ++ (r ++ [m])) with
        | none => rfl
        | some k =>
          unfold kindOf at hk
          rw [if_neg (by simp)] at hk
          cases hf : fs.find? (fun e => e.1 == p ++ (r ++ [m])) with
          | none => rw [hf] at hk; simp at hk
          | some x =>
            have h1 := List.mem_of_find?_eq_some hf
            have h2 := List.find?_some hf
            have h3 := (hw.parent x h1).2
            rw [eq_of_beq h2, ← List.append_assoc, List.dropLast_concat, hr] at h3
            simp at h3
  exact key _ s rfl

theorem chain_snoc : ∀ (r d : Path) (x : Name), chain d (r ++ [x]) = chain d r ++ [(d ++ r ++ [x], .dir)] := by
  intro r
  induction r with
  | nil => intro d x; simp [chain]
  | cons n r ih => intro d x; simp [chain, ih]

theorem chain_below : ∀ (r d : Path) (e : Path × Kind), e ∈ chain d r → d.length < e.1.length ∧ e.1.length ≤ d.length + r.length := by
  intro r
  induction r with
  | nil => intro d e h; simp [chain] at h
  | cons n r ih =>
    intro d e h
    rcases List.mem_cons.1 h with rfl | h
    · simp
    · have := ih _ _ h
      simp only [List.length_append, List.length_cons, List.length_nil] at this ⊢
      omega

theorem chain_kind : ∀ (r1 d r2 : Path), r1 ≠ [] → kindOf (chain d (r1 ++ r2)) (d ++ r1) = some .dir := by
  intro r1
  induction r1 with
  | nil => intro d r2 h; exact absurd rfl h
  | cons n r1 ih =>
    intro d r2 _
    unfold kindOf
    rw [if_neg (by simp)]
    simp only [List.cons_append, chain, List.find?_cons]
    by_cases hr : r1 = []
    · subst hr; simp
    · have : ((d ++ [n]) == d ++ n :: r1) = false := by
        rw [beq_eq_false_iff_ne]
        intro q
        have := congrArg List.length q
        have : r1.length ≠ 0 := fun z => hr (List.length_eq_zero_iff.1 z)
        simp only [List.length_append, List.length_cons, List.length_nil] at *
        omega
      rw [this]
      have := ih (d ++ [n]) r2 hr
      unfold kindOf at this
      rw [if_neg (by simp)] at this
      rw [List.append_assoc, List.singleton_append] at this
      exact this

theorem chain_none (r d p : Path) (h : d.length + r.length < p.length) : kindOf (chain d r) p = none := by
  unfold kindOf
  rw [if_neg (by intro q; rw [q] at h; simp at h)]
  cases hf : (chain d r).find? (fun e => e.1 == p) with
  | none => rfl
  | some x =>
    have h1 := chain_below _ _ _ (List.mem_of_find?_eq_some hf)
    have h2 := List.find?_some hf
    rw [eq_of_beq h2] at h1
    omega

/-- What is missing is missing altogether. -/
def Missing (fs : Fs) (d rest : Path) : Prop := ∀ n, rest.head? = some n → kindOf fs (d ++ [n]) = none

theorem missing_all {fs : Fs} (hw : Wf fs) {d rest : Path} (h : Missing fs d rest) (r1 r2 : Path) (hr : rest = r1 ++ r2) (hne : r1 ≠ []) :
    kindOf fs (d ++ r1) = none := by
  cases r1 with
  | nil => exact absurd rfl hne
  | cons n r1 =>
    have := missing_below hw (h n (by simp [hr])) r1
    rwa [List.append_assoc, List.singleton_append] at this

/-- With the directories of `r1` created. -/
theorem after_kind {fs : Fs} (hw : Wf fs) {d rest : Path} (hd : kindOf fs d = some .dir) (h : Missing fs d rest) (r1 r2 r3 : Path)
    (hr : rest = r1 ++ r2 ++ r3) : kindOf (fs ++ chain d (r1 ++ r2)) (d ++ r1) = some .dir := by
  by_cases h1 : r1 = []
  · rw [h1, List.append_nil]; exact kindOf_append _ hd
  · rw [kindOf_append_none _ (missing_all hw h r1 (r2 ++ r3) (by rw [hr, List.append_assoc]) h1)]
    exact chain_kind r1 d r2 h1

theorem after_leads {fs : Fs} (hw : Wf fs) {d rest : Path} (hd : kindOf fs d = some .dir) (h : Missing fs d rest) (r2 r3 : Path) :
    ∀ (r1 : Path) (done : Path), rest = done ++ r1 ++ r2 ++ r3 → Leads (fs ++ chain d (done ++ r1 ++ r2)) 0 (d ++ done) r1 (d ++ done ++ r1) := by
  intro r1
  induction r1 with
  | nil => intro done _; rw [List.append_nil (d ++ done)]; exact .here _
  | cons n r1 ih =>
    intro done hr
    have e1 : done ++ n :: r1 = (done ++ [n]) ++ r1 := by simp
    have e2 := ih (done ++ [n]) (by rw [hr, e1])
    have e3 : d ++ done ++ n :: r1 = d ++ (done ++ [n]) ++ r1 := by simp
    rw [e3, e1]
    refine .down ?_ ?_
    · have := after_kind hw hd h (done ++ [n]) (r1 ++ r2) r3 (by rw [hr]; simp)
      rw [← List.append_assoc, ← List.append_assoc] at this
      exact this
    · rw [List.append_assoc d done [n]]; exact e2

theorem leads_trans {fs : Fs} {m : Nat} {h a q : Path} (h1 : Leads fs m h a q) (hq : kindOf fs q = some .dir) :
    ∀ {k : Nat} {b z : Path}, Leads fs k q b z → Leads fs (m + k) h (a ++ b) z := by
  induction h1 with
  | here h => intro k b z h2; rw [Nat.zero_add]; exact h2
  | down hk _ ih => intro k b z h2; exact .down hk (ih hq h2)
  | file hk => rw [hk] at hq; exact absurd hq (by simp)
  | link hk _ ih =>
    intro k b z h2
    rw [Nat.add_right_comm]
    refine .link hk ?_
    have := ih hq h2
    rw [List.append_assoc] at this
    exact this

theorem after_found {fs : Fs} (hw : Wf fs) {m : Nat} {pre d rest : Path} (hm : m ≤ 40) (hl : Leads fs m [] pre d) (hd : kindOf fs d = some .dir)
    (h : Missing fs d rest) (r1 r2 r3 : Path) (hr : rest = r1 ++ r2 ++ r3) : seek (fs ++ chain d (r1 ++ r2)) 40 (pre ++ r1) = .found (d ++ r1) := by
  have hk := after_kind hw hd h r1 r2 r3 hr
  have h2 := after_leads hw hd h r2 r3 r1 [] (by simpa using hr)
  simp only [List.append_nil, List.nil_append] at h2
  exact leads_found (leads_trans (leads_append _ hl) (kindOf_append _ hd) h2) hk (by omega)

/-! ### Texts -/

theorem foldr_tail : ∀ (n : Bytes) (x : Name × Path), (47 : UInt8) ∉ n →
    n.foldr (fun c (r : Name × Path) => if c = 47 then ([], if r.1 = [] then r.2 else r.1 :: r.2) else (c :: r.1, r.2)) x = (n ++ x.1, x.2) := by
  intro n
  induction n with
  | nil => intro x _; rfl
  | cons c n ih =>
    intro x h
    have hc : c ≠ 47 := fun q => h (by simp [q])
    rw [List.foldr_cons, ih x (fun q => h (by simp [q])), if_neg hc]
    rfl

theorem foldr_more (a : Bytes) : ∀ (y : Path) (z : Path),
    a.foldr (fun c (r : Name × Path) => if c = 47 then ([], if r.1 = [] then r.2 else r.1 :: r.2) else (c :: r.1, r.2)) ([], y ++ z) =
    ((a.foldr (fun c (r : Name × Path) => if c = 47 then ([], if r.1 = [] then r.2 else r.1 :: r.2) else (c :: r.1, r.2)) ([], y)).1,
     (a.foldr (fun c (r : Name × Path) => if c = 47 then ([], if r.1 = [] then r.2 else r.1 :: r.2) else (c :: r.1, r.2)) ([], y)).2 ++ z) := by
  induction a with
  | nil => intro y z; rfl
  | cons c a ih =>
    intro y z
    rw [List.foldr_cons, ih y z, List.foldr_cons]
    by_cases hc : c = 47
    · simp only [if_pos hc]
      split <;> rfl
    · simp only [if_neg hc]

theorem parts_snoc (a b : Bytes) (hb : (47 : UInt8) ∉ b) : parts (a ++ 47 :: b) = parts a ++ (if b = [] then [] else [b]) := by
  unfold parts
  rw [List.foldr_append, List.foldr_cons, foldr_tail b _ hb]
  simp only [List.append_nil, if_true]
  have := foldr_more a [] (if b = [] then [] else [b])
  rw [List.nil_append] at this
  rw [this]
  dsimp only
  split <;> rfl

theorem parts_plain (b : Bytes) (hb : (47 : UInt8) ∉ b) (hne : b ≠ []) : parts b = [b] := by
  unfold parts
  rw [foldr_tail b _ hb]
  simp [hne]

theorem parts_cons (c : UInt8) (b : Bytes) (hc : c ≠ 47) : parts (c :: b) ≠ [] := by
  unfold parts
  rw [List.foldr_cons, if_neg hc]
  simp

theorem parts_slash (b : Bytes) : parts (47 :: b) = parts b := by
  unfold parts
  rw [List.foldr_cons, if_pos rfl]
  simp

theorem parts_norm (b : Bytes) (h : b.length ≤ 1023) : parts (norm b) = parts b := by
  unfold norm
  rw [List.take_of_length_le (by omega)]
  by_cases hl : b.getLast? = some 47
  · rw [if_pos hl]
    rcases snoc_cases b with rfl | ⟨r, m, rfl⟩
    · rfl
    · rw [List.dropLast_concat]
      have : m = 47 := by simpa using hl
      rw [this, parts_snoc r [] (by simp)]
      simp
  · rw [if_neg hl]

theorem norm_length (b : Bytes) : (norm b).length ≤ b.length := by
  unfold norm
  split <;> simp <;> omega

theorem norm_head (b : Bytes) (h : norm b ≠ []) : (norm b).head? = b.head? := by
  unfold norm at h ⊢
  by_cases hl : (b.take 1023).getLast? = some 47
  · rw [if_pos hl] at h ⊢
    cases b with
    | nil => rfl
    | cons c b =>
      cases hb : (c :: b).take 1023 with
      | nil => simp at hb
      | cons x y =>
        rw [hb] at h
        have : x = c := by simp at hb; exact hb.1.symm
        cases y with
        | nil => simp at h
        | cons z w => simp [this]
  · rw [if_neg hl]
    cases b <;> simp

theorem parent_none {b : Bytes} (h : parent b = none) : (47 : UInt8) ∉ b := by
  unfold parent at h
  by_cases hm : (47 : UInt8) ∈ b
  · rw [if_pos hm] at h; simp at h
  · exact hm

theorem parent_some {b up : Bytes} (h : parent b = some up) : ∃ c, b = up ++ 47 :: c ∧ (47 : UInt8) ∉ c := by
  unfold parent at h
  by_cases hm : (47 : UInt8) ∈ b
  · rw [if_pos hm] at h
    have hs := List.takeWhile_append_dropWhile (p := fun c : UInt8 => c != 47) (l := b.reverse)
    cases hd : b.reverse.dropWhile (fun c => c != 47) with
    | nil =>
      have : ∀ x ∈ b.reverse, (x != 47) = true := by
        intro x hx
        rw [hd, List.append_nil] at hs
        rw [← hs] at hx
        exact (List.all_takeWhile (p := fun c : UInt8 => c != 47) (l := b.reverse) |> List.all_eq_true.1) x hx
      have := this 47 (by simpa using hm)
      simp at this
    | cons x t =>
      have hx : x = 47 := by
        have := List.head?_dropWhile_not (p := fun c : UInt8 => c != 47) b.reverse
        rw [hd] at this
        simpa using this
      refine ⟨(b.reverse.takeWhile (fun c => c != 47)).reverse, ?_, ?_⟩
      · have := congrArg List.reverse hs
        rw [hd, hx] at this
        rw [hd] at h
        simp only [List.tail_cons, Option.some.injEq] at h
        rw [← h]
        simp only [List.reverse_append, List.reverse_cons, List.reverse_reverse] at this
        exact (this.symm.trans (by simp))
      · intro hc
        have := (List.all_takeWhile (p := fun c : UInt8 => c != 47) (l := b.reverse) |> List.all_eq_true.1) 47 (by simpa using hc)
        simp at this
  · rw [if_neg hm] at h; simp at h

theorem parent_shorter {b up : Bytes} (h : parent b = some up) : up.length < b.length := by
  obtain ⟨c, rfl, _⟩ := parent_some h
  simp

/-- The limit for the depth of calls is never reached. -/
theorem force_depth (may : Path → Bool) (cwd : Path) : ∀ (n k : Nat) (fs : Fs) (path : Bytes), path.length < n → path.length < k →
    forceN may cwd n fs path = forceN may cwd k fs path := by
  intro n
  induction n with
  | zero => intro k fs path h _; omega
  | succ n ih =>
    intro k fs path h1 h2
    obtain ⟨k, rfl⟩ : ∃ j, k = j + 1 := ⟨k - 1, by omega⟩
    unfold forceN
    cases stat cwd fs (norm path) with
    | found p => rfl
    | notdir => rfl
    | loop => rfl
    | noent =>
      dsimp only
      cases hp : parent (norm path) with
      | none => rfl
      | some up =>
        have := parent_shorter hp
        have := norm_length path
        dsimp only
        rw [ih k fs up (by omega) (by omega)]

end Verif.ForceDir
