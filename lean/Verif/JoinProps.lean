import Verif.Join
import Verif.UnpackFiles
/-
What a joined file contains.
-/
namespace Verif.Join
open CStr Files

theorem foldMin (l : List (Bytes × Bytes)) : ∀ m : Int, -1 ≤ m →
    (l = [] → l.foldl stepMin m = m) ∧ (l ≠ [] → 0 ≤ l.foldl stepMin m) ∧
    (∀ f ∈ l, l.foldl stepMin m ≤ segNum f.1) ∧ (0 ≤ m → l.foldl stepMin m ≤ m ∧ 0 ≤ l.foldl stepMin m) := by
  induction l with
  | nil => intro m _; exact ⟨fun _ => rfl, fun h => absurd rfl h, (fun _ h => nomatch h), fun h => ⟨Int.le_refl _, h⟩⟩
  | cons f l ih =>
    intro m hm
    rw [List.foldl_cons]
    have h0 : 0 ≤ stepMin m f ∧ stepMin m f ≤ segNum f.1 ∧ (0 ≤ m → stepMin m f ≤ m) := by
      unfold stepMin
      split <;> omega
    obtain ⟨_, _, h3, h4⟩ := ih (stepMin m f) (by omega)
    have h4 := h4 h0.1
    refine ⟨(fun h => nomatch h), fun _ => h4.2, ?_, fun h => ⟨by have := h0.2.2 h; omega, h4.2⟩⟩
    intro g hg
    rcases List.mem_cons.mp hg with rfl | hg
    · omega
    · exact h3 g hg

theorem foldMax (l : List (Bytes × Bytes)) : ∀ m : Int, (∀ f ∈ l, (segNum f.1 : Int) ≤ l.foldl stepMax m) ∧
    m ≤ l.foldl stepMax m ∧ (l.foldl stepMax m = m ∨ ∃ f ∈ l, l.foldl stepMax m = segNum f.1) := by
  induction l with
  | nil => intro m; exact ⟨(fun _ h => nomatch h), Int.le_refl _, Or.inl rfl⟩
  | cons f l ih =>
    intro m
    rw [List.foldl_cons]
    obtain ⟨h1, h2, h3⟩ := ih (stepMax m f)
    have h0 : m ≤ stepMax m f ∧ (segNum f.1 : Int) ≤ stepMax m f ∧ (stepMax m f = m ∨ stepMax m f = segNum f.1) := by
      unfold stepMax
      split <;> omega
    refine ⟨?_, by omega, ?_⟩
    · intro g hg
      rcases List.mem_cons.mp hg with rfl | hg
      · omega
      · exact h1 g hg
    · rcases h3 with h3 | ⟨g, hg, h3⟩
      · rcases h0.2.2 with h | h
        · left; omega
        · right; exact ⟨f, List.mem_cons_self, by omega⟩
      · right; exact ⟨g, List.mem_cons_of_mem _ hg, h3⟩

theorem foldDif (first : Nat) (l : List (Bytes × Bytes)) : ∀ m : Int,
    l.foldl (stepDif first) m ≤ m ∧
    (∀ f ∈ l, f.2.length ≠ first → l.foldl (stepDif first) m ≤ segNum f.1) ∧
    (l.foldl (stepDif first) m = m ∨ ∃ f ∈ l, f.2.length ≠ first ∧ l.foldl (stepDif first) m = segNum f.1) := by
  induction l with
  | nil => intro m; exact ⟨Int.le_refl _, (fun _ h => nomatch h), Or.inl rfl⟩
  | cons f l ih =>
    intro m
    rw [List.foldl_cons]
    obtain ⟨h1, h2, h3⟩ := ih (stepDif first m f)
    have h0 : stepDif first m f ≤ m ∧ (f.2.length ≠ first → stepDif first m f ≤ segNum f.1) ∧
        (stepDif first m f = m ∨ (f.2.length ≠ first ∧ stepDif first m f = segNum f.1)) := by
      unfold stepDif
      by_cases hf : f.2.length ≠ first
      · rw [if_pos hf]
        split
        · exact ⟨by omega, fun _ => Int.le_refl _, Or.inr ⟨hf, rfl⟩⟩
        · exact ⟨by omega, fun _ => by omega, Or.inl rfl⟩
      · rw [if_neg hf]
        exact ⟨by omega, fun h => absurd h hf, Or.inl rfl⟩
    refine ⟨by omega, ?_, ?_⟩
    · intro g hg hgl
      rcases List.mem_cons.mp hg with rfl | hg
      · have := h0.2.1 hgl
        omega
      · exact h2 g hg hgl
    · rcases h3 with h3 | ⟨g, hg, h3⟩
      · rcases h0.2.2 with h | ⟨h, h'⟩
        · left; omega
        · right; exact ⟨f, List.mem_cons_self, h, by omega⟩
      · right; exact ⟨g, List.mem_cons_of_mem _ hg, h3⟩

theorem mem_frags (d : Dir) (f : Bytes × Bytes) : f ∈ frags d ↔ (f.1, .file f.2) ∈ d ∧ isSplit f.1 = true := by
  induction d with
  | nil => simp [frags]
  | cons e d ih =>
    obtain ⟨n, x⟩ := e
    cases x with
    | dir t => simp [frags, ih]
    | file data =>
      rw [frags]
      by_cases h : isSplit n = true
      · rw [if_pos h, List.mem_cons, ih, List.mem_cons]
        constructor
        · rintro (rfl | h2)
          · exact ⟨Or.inl rfl, h⟩
          · exact ⟨Or.inr h2.1, h2.2⟩
        · rintro ⟨h2 | h2, h3⟩
          · left
            cases f
            simp only [Prod.mk.injEq, Node.file.injEq] at h2
            rw [h2.1, h2.2]
          · exact Or.inr ⟨h2, h3⟩
      · rw [if_neg h, ih, List.mem_cons]
        constructor
        · rintro ⟨h1, h2⟩; exact ⟨Or.inr h1, h2⟩
        · rintro ⟨h2 | h2, h3⟩
          · simp only [Prod.mk.injEq] at h2
            rw [h2.1] at h3
            exact absurd h3 h
          · exact ⟨h2, h3⟩

theorem frags_names (d : Dir) (h : Names d) : ((frags d).map (·.1)).Nodup := by
  have key : ∀ d : Dir, ((frags d).map (·.1)).Sublist (d.map (·.1)) := by
    intro d
    induction d with
    | nil => exact List.Sublist.slnil
    | cons e d ih =>
      obtain ⟨n, x⟩ := e
      cases x with
      | dir t => exact List.Sublist.cons _ ih
      | file data =>
        rw [frags]
        split
        · exact List.Sublist.cons_cons _ ih
        · exact List.Sublist.cons _ ih
  exact List.Sublist.nodup (key d) h

theorem ofNat_toNat_digit (k : Nat) (h : k < 10) : (UInt8.ofNat (48 + k)).toNat = 48 + k := by
  rw [UInt8.toNat_ofNat']
  omega

theorem segNum_fragName (base : Bytes) (i : Nat) (h : i < 1000) : segNum (fragName base i) = i := by
  unfold segNum fragName pad3
  simp only [List.reverse_append, List.reverse_cons, List.reverse_nil, List.nil_append, List.cons_append]
  rw [ofNat_toNat_digit _ (by omega), ofNat_toNat_digit _ (by omega), ofNat_toNat_digit _ (by omega)]
  omega

theorem fragName_inj (base : Bytes) (i j : Nat) (hi : i < 1000) (hj : j < 1000) (h : fragName base i = fragName base j) :
    i = j := by
  rw [← segNum_fragName base i hi, h, segNum_fragName base j hj]

/-- All split files of the directory belong to one set. -/
def OneSet (d : Dir) (base : Bytes) : Prop :=
  ∀ n data, (n, .file data) ∈ d → isSplit n = true → ∃ i, i < 1000 ∧ n = fragName base i

/-- The data of fragments `i`, `i+1`, ... (`k` of them). -/
def concat (piece : Nat → Bytes) : (k i : Nat) → Bytes
  | 0, _ => []
  | k + 1, i => piece i ++ concat piece k (i + 1)

/- Numbers in a range, as many as the range has. -/
theorem range_full (l : List Nat) (a b : Nat) (hn : l.Nodup) (hr : ∀ x ∈ l, a ≤ x ∧ x ≤ b) (hl : l.length = b + 1 - a) :
    ∀ i, a ≤ i → i ≤ b → i ∈ l := by
  intro i h1 h2
  by_cases hi : i ∈ l
  · exact hi
  · have hlen := List.Nodup.length_le_of_subset (l₁ := i :: l) (l₂ := (List.range (b + 1 - a)).map (· + a))
      (List.nodup_cons.mpr ⟨hi, hn⟩)
      (by
        intro x hx
        rw [List.mem_map]
        have hx2 : a ≤ x ∧ x ≤ b := by
          rcases List.mem_cons.mp hx with rfl | hx
          · exact ⟨h1, h2⟩
          · exact hr x hx
        exact ⟨x - a, List.mem_range.mpr (by omega), by omega⟩)
    rw [List.length_map, List.length_range, List.length_cons] at hlen
    omega

theorem refused_false (par : Bool) (s : Stat) (h : refused par s = false) :
    s.min ≤ 1 ∧ corrected s = s.max ∧ (par = false → s.dif = corrected s ∧ s.dif ≤ s.max) := by
  unfold refused at h
  rw [Bool.or_eq_false_iff, Bool.or_eq_false_iff, Bool.and_eq_false_iff, Bool.or_eq_false_iff] at h
  simp only [decide_eq_false_iff_not] at h
  refine ⟨by omega, by omega, ?_⟩
  intro hp
  rw [hp] at h
  rcases h.2 with h2 | h2
  · omega
  · simp at h2

/- What is known if the test for missing fragments is passed. -/
theorem accepted (par : Bool) (d : Dir) (first : Nat) (base : Bytes) (hd : Names d) (h1 : OneSet d base)
    (h : refused par (stat first (frags d)) = false) :
    ∃ a b : Nat, (stat first (frags d)).min = a ∧ (stat first (frags d)).max = b ∧ a ≤ 1 ∧ b < 1000 ∧
      (∀ i, a ≤ i → i ≤ b → ∃ data, (fragName base i, data) ∈ frags d) ∧
      (∀ f ∈ frags d, ∃ i, a ≤ i ∧ i ≤ b ∧ f.1 = fragName base i) ∧
      (par = false → (stat first (frags d)).dif = b) := by
  obtain ⟨r1, r2, r3⟩ := refused_false par _ h
  have hname : ∀ f ∈ frags d, f.1 = fragName base (segNum f.1) ∧ segNum f.1 < 1000 := by
    intro f hf
    obtain ⟨hm, hs⟩ := (mem_frags d f).mp hf
    obtain ⟨i, hi, he⟩ := h1 f.1 f.2 hm hs
    rw [he, segNum_fragName base i hi]
    exact ⟨rfl, hi⟩
  obtain ⟨m1, m2, m3, _⟩ := foldMin (frags d) (-1) (by omega)
  obtain ⟨x1, x2, x3⟩ := foldMax (frags d) (-1)
  have e1 : (stat first (frags d)).min = (frags d).foldl stepMin (-1) := rfl
  have e2 : (stat first (frags d)).max = (frags d).foldl stepMax (-1) := rfl
  have e3 : (stat first (frags d)).count = (frags d).length := rfl
  have hne : frags d ≠ [] := by
    intro hnil
    unfold corrected at r2
    rw [e1, e2, e3, hnil] at r2
    simp at r2
  have m2 := m2 hne
  have hx : 0 ≤ (frags d).foldl stepMax (-1) := by
    obtain ⟨f, hf⟩ := List.exists_mem_of_ne_nil _ hne
    have := x1 f hf
    omega
  rw [e1] at r1
  refine ⟨((frags d).foldl stepMin (-1)).toNat, ((frags d).foldl stepMax (-1)).toNat, ?_, ?_, ?_, ?_, ?_, ?_, ?_⟩
  · rw [e1]; omega
  · rw [e2]; omega
  · omega
  · rcases x3 with x3 | ⟨f, hf, x3⟩
    · omega
    · have := (hname f hf).2
      omega
  · intro i hi1 hi2
    have hmem := range_full ((frags d).map (fun f => segNum f.1)) ((frags d).foldl stepMin (-1)).toNat
      ((frags d).foldl stepMax (-1)).toNat
      (by
        have hnn := frags_names d hd
        rw [List.nodup_iff_pairwise_ne, List.pairwise_map] at hnn ⊢
        refine List.Pairwise.imp_of_mem ?_ hnn
        intro f g hf hg hne he
        apply hne
        rw [(hname f hf).1, (hname g hg).1, he])
      (by
        intro x hx
        obtain ⟨f, hf, rfl⟩ := List.mem_map.mp hx
        have := m3 f hf
        have := x1 f hf
        omega)
      (by
        rw [List.length_map]
        unfold corrected at r2
        rw [e1, e2, e3] at r2
        split at r2 <;> omega)
      i hi1 hi2
    obtain ⟨f, hf, he⟩ := List.mem_map.mp hmem
    refine ⟨f.2, ?_⟩
    have := (hname f hf).1
    rw [he] at this
    rw [← this]
    exact hf
  · intro f hf
    have := m3 f hf
    have := x1 f hf
    exact ⟨segNum f.1, by omega, by omega, (hname f hf).1⟩
  · intro hp
    have := (r3 hp).1
    rw [this, r2, e2]
    omega

theorem joinLoop_full (d : Dir) (base : Bytes) (opens : Nat → Bool) (arrived : Nat → Option Nat) (piece : Nat → Bytes)
    (ha : ∀ i, arrived i = none) : ∀ (k i : Nat),
    (∀ j, i ≤ j → j < i + k → get d (fragName base j) = some (.file (piece j))) →
    (joinLoop d base opens arrived k i).1 = true →
    joinLoop d base opens arrived k i = (true, concat piece k i, (List.range k).map (fun j => fragName base (i + j))) := by
  intro k
  induction k with
  | zero => intro i _ _; rfl
  | succ k ih =>
    intro i h hok
    have hg := h i (Nat.le_refl _) (by omega)
    rw [joinLoop, hg] at hok ⊢
    dsimp only at hok ⊢
    cases ho : opens i with
    | false => rw [ho, if_neg Bool.false_ne_true] at hok; exact Bool.noConfusion hok
    | true =>
      rw [ho, if_pos rfl] at hok
      rw [if_pos rfl]
      have := ih (i + 1) (fun j h1 h2 => h j (by omega) (by omega)) hok
      rw [this, ha, List.range_succ_eq_map, List.map_cons, List.map_map]
      dsimp only
      have hf : (fun j => fragName base (i + 1 + j)) = (fun j => fragName base (i + j)) ∘ Nat.succ := by
        funext j
        show _ = fragName base (i + (j + 1))
        rw [Nat.add_assoc, Nat.add_comm 1 j]
      rw [← hf]
      rfl

/-- **A joined file is complete**, as far as the directory has split files of one set only and reads and writes
do not fail: fragments are numbered without holes from 0 or 1 on, the joined file is all of them in the
order of their numbers, and exactly these files are later deleted as joined. -/
theorem join_complete_partial (par : Bool) (d : Dir) (opens : Nat → Bool) (arrived : Nat → Option Nat) (base first : Bytes)
    (hd : Names d) (h1 : OneSet d base) (ha : ∀ i, arrived i = none) (piece : Nat → Bytes)
    (hp : ∀ i data, (fragName base i, .file data) ∈ d → isSplit (fragName base i) = true → data = piece i)
    (r : Bytes × List Bytes) (h : joinFile par d opens arrived base first = some (true, r)) :
    ∃ a b, a ≤ 1 ∧ b < 1000 ∧ r = (concat piece (b + 1 - a) a, (List.range (b + 1 - a)).map (fun j => fragName base (a + j))) ∧
      (∀ n data, (n, .file data) ∈ d ∧ isSplit n = true → ∃ i, a ≤ i ∧ i ≤ b ∧ n = fragName base i) ∧
      (∀ i, a ≤ i → i ≤ b → (fragName base i, .file (piece i)) ∈ d) := by
  unfold joinFile at h
  dsimp only at h
  cases hr : refused par (stat first.length (frags d)) with
  | true => rw [hr, if_pos rfl] at h; cases h
  | false =>
    rw [hr, if_neg Bool.false_ne_true] at h
    obtain ⟨a, b, e1, e2, ha1, hb1, h3, h4, _⟩ := accepted par d first.length base hd h1 hr
    rw [e1, e2] at h
    have hk : ((b : Int) + 1 - (a : Int)).toNat = b + 1 - a := by omega
    rw [hk, Int.toNat_natCast] at h
    have hin : ∀ i, a ≤ i → i ≤ b → (fragName base i, .file (piece i)) ∈ d := by
      intro i hi1 hi2
      obtain ⟨data, hm⟩ := h3 i hi1 hi2
      obtain ⟨hm, hs⟩ := (mem_frags d _).mp hm
      have := hp i data hm hs
      rw [← this]
      exact hm
    have hj : (joinLoop d base opens arrived (b + 1 - a) a).1 = true := by
      have := Option.some.inj h
      rw [this]
    have hfull := joinLoop_full d base opens arrived piece ha (b + 1 - a) a
      (fun j hj1 hj2 => get_of_mem d _ _ hd (hin j hj1 (by omega))) hj
    rw [hfull] at h
    have := Option.some.inj h
    rw [Prod.mk.injEq] at this
    refine ⟨a, b, ha1, hb1, this.2.symm, ?_, hin⟩
    intro n data hn
    exact h4 (n, data) ((mem_frags d (n, data)).mpr hn)

/-- **Missing fragments are detected** without a successful par-check: if a file was split into `N` pieces
numbered from 1, of which all but the last have the same size and the last is smaller, and some of these
pieces are not there, the files are not joined. -/
theorem missing_fragment_detected (d : Dir) (opens : Nat → Bool) (arrived : Nat → Option Nat) (base : Bytes)
    (N : Nat) (piece : Nat → Bytes) (hd : Names d) (h1 : OneSet d base)
    (hp : ∀ i data, i < 1000 → (fragName base i, .file data) ∈ d → 1 ≤ i ∧ i ≤ N ∧ data = piece i)
    (hsame : ∀ i, 1 ≤ i → i < N → (piece i).length = (piece 1).length)
    (i : Nat) (hi : 1 ≤ i) (hiN : i ≤ N) (hno : ∀ data, (fragName base i, .file data) ∉ d) :
    joinFile false d opens arrived base (piece 1) = none := by
  unfold joinFile
  dsimp only
  cases hr : refused false (stat (piece 1).length (frags d)) with
  | true => rw [if_pos rfl]
  | false =>
    exfalso
    obtain ⟨a, b, e1, e2, ha1, hb1, h3, h4, h5⟩ := accepted false d (piece 1).length base hd h1 hr
    have h5 := h5 rfl
    -- the last fragment in the directory has another size
    obtain ⟨f1, f2, f3⟩ := foldDif (piece 1).length (frags d) 999999
    have e3 : (stat (piece 1).length (frags d)).dif = (frags d).foldl (stepDif (piece 1).length) 999999 := rfl
    rw [e3] at h5
    rcases f3 with f3 | ⟨f, hf, hfl, f3⟩
    · omega
    · obtain ⟨j, hj1, hj2, hj3⟩ := h4 f hf
      have hm := ((mem_frags d f).mp hf).1
      rw [hj3] at hm
      obtain ⟨q1, q2, q3⟩ := hp j f.2 (by omega) hm
      have hseg : segNum f.1 = j := by rw [hj3, segNum_fragName base j (by omega)]
      have hjN : j = N := by
        by_cases hlt : j < N
        · exact absurd (by rw [q3, hsame j q1 hlt]) hfl
        · omega
      have : i ≤ b := by omega
      obtain ⟨data, hdm⟩ := h3 i (by omega) this
      exact hno data ((mem_frags d _).mp hdm).1

/-- Three fragments: they are joined in the order of their numbers. -/
def three : Dir := [(lit "f.avi.003", .file [5]), (lit "f.avi.001", .file [1, 2]), (lit "f.avi.002", .file [3, 4]),
  (lit "x.nfo", .file [9])]

example : joinFile false three (fun _ => true) (fun _ => none) (lit "f.avi") [1, 2] =
    some (true, [1, 2, 3, 4, 5], [lit "f.avi.001", lit "f.avi.002", lit "f.avi.003"]) := by decide +kernel

example : Names three := by decide +kernel

example : OneSet three (lit "f.avi") := by
  intro n data hm hs
  simp only [three, List.mem_cons, Prod.mk.injEq, List.not_mem_nil, or_false] at hm
  rcases hm with h | h | h | h
  · exact ⟨3, by omega, by rw [h.1]; decide⟩
  · exact ⟨1, by omega, by rw [h.1]; decide⟩
  · exact ⟨2, by omega, by rw [h.1]; decide⟩
  · rw [h.1] at hs
    exact absurd hs (by decide)

/- The last of three fragments is missing. -/
example : joinFile false [(lit "f.avi.001", .file [1, 2]), (lit "f.avi.002", .file [3, 4])] (fun _ => true) (fun _ => none)
    (lit "f.avi") [1, 2] = none := by decide +kernel

/- **Fragments of two sets are counted together**: with `a.abc.001`, `b.abc.002` and `a.abc.003` no fragment
seems to be missing. The joined file has the first fragment only, joining is reported as a success and the
first fragment is deleted. -/
theorem two_sets_joined :
    joinFile false [(lit "a.abc.001", .file [1, 2]), (lit "b.abc.002", .file [3, 4]), (lit "a.abc.003", .file [5])]
      (fun _ => true) (fun _ => none) (lit "a.abc") [1, 2] = some (true, [1, 2], [lit "a.abc.001"]) ∧
    unpackCleanup ⟨true, true, true, [lit "a.abc.001"], false⟩ (fun _ => .done) (fun _ => true) (fun _ => false)
      [(lit "a.abc", .file [1, 2])]
      [(lit "a.abc.001", .file [1, 2]), (lit "b.abc.002", .file [3, 4]), (lit "a.abc.003", .file [5])] [] =
      ⟨true, [], [(lit "a.abc", .file [1, 2]), (lit "b.abc.002", .file [3, 4]), (lit "a.abc.003", .file [5])], []⟩ := by
  decide +kernel

/- **Two complete sets are not joined.** -/
theorem two_complete_sets_refused :
    joinFile false [(lit "a.abc.001", .file [1, 2]), (lit "a.abc.002", .file [3]), (lit "b.abc.001", .file [1, 2]),
      (lit "b.abc.002", .file [3])] (fun _ => true) (fun _ => none) (lit "a.abc") [1, 2] = none := by
  decide +kernel

/- **A write error is not noticed**: with a full disk the joined file is cut off, joining is reported as a
success, and the fragments are in the list of files to delete. -/
theorem join_write_error :
    joinFile false three (fun _ => true) (fun _ => some 0) (lit "f.avi") [1, 2] =
      some (true, [], [lit "f.avi.001", lit "f.avi.002", lit "f.avi.003"]) := by
  decide +kernel

end Verif.Join
