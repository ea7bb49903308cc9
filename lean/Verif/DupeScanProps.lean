import Verif.DupeScan
import Verif.DupeProps
import Verif.FileNameProps
/-
Which other downloads a par check searches for missing blocks (C138).
-/
namespace Verif.DupeScan
open Verif.CStr

/-- Two sizes are near: they differ by less than `percent` of the larger one. -/
def Near (a b percent : Int) : Prop := 100 * (max a b - min a b) < percent * max a b

instance (a b percent : Int) : Decidable (Near a b percent) := inferInstanceAs (Decidable (_ < _))

theorem sizeDiffOK_iff {a b percent : Int} (ha : 0 < a) (hb : 0 < b) : sizeDiffOK a b percent = true ↔ Near a b percent := by
  unfold sizeDiffOK Near
  rw [if_neg (by omega)]
  simp only [decide_eq_true_eq]
  by_cases h : a > b
  · rw [if_pos h, if_pos (by omega), Int.tdiv_eq_ediv_of_nonneg (by omega), Int.ediv_lt_iff_lt_mul (by omega),
      show max a b = a by omega, show min a b = b by omega, Int.mul_comm]
  · rw [if_neg h, if_neg (by omega), Int.tdiv_eq_ediv_of_nonneg (by omega), Int.ediv_lt_iff_lt_mul (by omega),
      show max a b = b by omega, show min a b = a by omega, Int.mul_comm, Int.neg_sub]

/-- A size which is not positive is never near a positive one. -/
theorem sizeDiffOK_neg {a b : Int} (ha : a ≤ 0) (hb : 0 < b) : sizeDiffOK a b 20 = false := by
  unfold sizeDiffOK
  split
  · rfl
  · dsimp only
    rw [if_neg (by omega : ¬ a - b > 0), if_neg (by omega : ¬ a > b)]
    simp only [decide_eq_false_iff_not, Int.not_lt]
    rw [Int.tdiv_eq_ediv_of_nonneg (by omega), Int.le_ediv_iff_mul_le (by omega)]
    omega

/-- The main file of a directory is known and fits to the size of the download. -/
def Known (expected : Int) (own : Dir) : Prop := 0 < (prepare expected own).1 ∧ Near (prepare expected own).1 expected 20

theorem known_iff {expected : Int} (he : 0 < expected) (own : Dir) : (prepare expected own).2.2 = true ↔ Known expected own := by
  unfold Known
  by_cases h : 0 < (prepare expected own).1
  · have := sizeDiffOK_iff (percent := 20) h he
    simp only [h, true_and]
    exact this
  · have := sizeDiffOK_neg (a := (prepare expected own).1) (by omega) he
    constructor
    · intro hh
      have : (prepare expected own).2.2 = sizeDiffOK (prepare expected own).1 expected 20 := rfl
      simp_all
    · intro hh; exact absurd hh.1 h

/-- Exactly these directories are searched: of all downloads in the history which are duplicates, neither they nor the download itself with the mode
"force"; and if the main file of the download is known, only those whose main file has the same size and is stored or compressed alike. -/
theorem sources_iff {force : Bool} {name key : String} {expected : Int} (he : 0 < expected) {own : Dir} {hist : List Hist} {h : Hist} :
    h ∈ request force name key expected own hist ↔
      h ∈ hist ∧ force = false ∧ h.nzb = true ∧ h.force = false ∧ Dupe.SameTitle h.name h.key name key ∧
        (Known expected own → findLargest (some (prepare expected own).1) h.dir.heard 0 h.dir.entries =
          ((prepare expected own).1, (prepare expected own).2.1)) := by
  have hm : h ∈ listDupes force name key hist ↔ h ∈ hist ∧ force = false ∧ h.nzb = true ∧ h.force = false ∧ Dupe.SameTitle h.name h.key name key := by
    unfold listDupes
    cases force
    · simp only [Bool.false_eq_true, if_false, List.mem_filter, Bool.and_eq_true, Bool.not_eq_true', Dupe.same_iff, true_and]
      grind
    · simp
  have hr : h ∈ request force name key expected own hist ↔ h ∈ listDupes force name key hist ∧
      ((prepare expected own).2.2 = true → findLargest (some (prepare expected own).1) h.dir.heard 0 h.dir.entries =
          ((prepare expected own).1, (prepare expected own).2.1)) := by
    unfold request
    dsimp only
    split
    · rename_i hn; simp [hn]
    · simp only [List.mem_filter, Bool.or_eq_true, Bool.not_eq_true', matches_, beq_iff_eq]
      cases (prepare expected own).2.2 <;> simp
  rw [hr, hm, known_iff he]
  grind

/-- In the order of the history, each at most as often as it is there. -/
theorem sources_order (force : Bool) (name key : String) (expected : Int) (own : Dir) (hist : List Hist) :
    (request force name key expected own hist).Sublist hist := by
  unfold request listDupes
  dsimp only
  cases force
  · simp only [Bool.false_eq_true, if_false]
    split
    · exact List.nil_sublist _
    · exact List.filter_sublist.trans List.filter_sublist
  · simp

theorem plain_step (mine : Option Int) (heard : Option (List Line)) : ∀ (es : List Entry) (m : Int), (∀ e ∈ es, e.rar = false) →
    m ≤ (findLargest mine heard m es).1 ∧ (findLargest mine heard m es).2 = false ∧ (∀ e ∈ es, e.size ≤ (findLargest mine heard m es).1) ∧
      ((findLargest mine heard m es).1 = m ∨ ∃ e ∈ es, e.size = (findLargest mine heard m es).1)
  | [], m, _ => by simp [findLargest]
  | e :: es, m, h => by
    have he := h e (by simp)
    obtain ⟨h1, h2, h3, h4⟩ := plain_step mine heard es (if e.size > m then e.size else m) fun x hx => h x (by simp [hx])
    simp only [findLargest, he, Bool.false_eq_true, if_false]
    generalize findLargest mine heard (if e.size > m then e.size else m) es = r at *
    refine ⟨by split at h1 <;> omega, h2, ?_, ?_⟩
    · intro x hx
      rcases List.mem_cons.mp hx with rfl | hx
      · split at h1 <;> omega
      · exact h3 x hx
    · rcases h4 with h4 | ⟨x, hx, h4⟩
      · split at h4
        · exact .inr ⟨e, by simp, h4.symm⟩
        · exact .inl h4
      · exact .inr ⟨x, by simp [hx], h4⟩

/-- Without an archive the main file is the largest one. -/
theorem plain_largest (mine : Option Int) (heard : Option (List Line)) (es : List Entry) (h : ∀ e ∈ es, e.rar = false) :
    (findLargest mine heard 0 es).2 = false ∧ (∀ e ∈ es, e.size ≤ (findLargest mine heard 0 es).1) ∧
      ((findLargest mine heard 0 es).1 = 0 ∨ ∃ e ∈ es, e.size = (findLargest mine heard 0 es).1) :=
  (plain_step mine heard es 0 h).2

theorem lister_stopped (x : Int) : ∀ (ls : List Line) (s : Lister), s.stopped = true → ls.foldl (addMessage x) s = s
  | [], _, _ => rfl
  | l :: ls, s, h => by
    rw [List.foldl_cons, show addMessage x s l = s by simp [addMessage, h]]
    exact lister_stopped x ls s h

theorem lister_step (x : Int) : ∀ (ls : List Line) (s : Lister), (ls.foldl (addMessage x) s).stopped = false →
    s.maxSize ≤ (ls.foldl (addMessage x) s).maxSize ∧ (∀ n, Line.size n ∈ ls → n ≤ (ls.foldl (addMessage x) s).maxSize) ∧
      ((ls.foldl (addMessage x) s).maxSize = s.maxSize ∨ Line.size (ls.foldl (addMessage x) s).maxSize ∈ ls)
  | [], s, _ => by simp
  | l :: ls, s, h => by
    rw [List.foldl_cons] at *
    have hs : s.stopped = false := by
      cases hs : s.stopped with
      | false => rfl
      | true =>
        rw [show addMessage x s l = s by simp [addMessage, hs], lister_stopped x ls s hs, hs] at h
        exact h
    obtain ⟨h1, h2, h3⟩ := lister_step x ls _ h
    generalize hr : ls.foldl (addMessage x) (addMessage x s l) = r at *
    simp only [addMessage, hs, Bool.false_eq_true, if_false] at h1 h3
    cases l with
    | size n =>
      dsimp only at h1 h3
      by_cases hn : n > s.maxSize
      · rw [if_pos hn] at h1 h3
        dsimp only at h1 h3
        refine ⟨by omega, fun k hk => ?_, ?_⟩
        · rcases List.mem_cons.mp hk with hk | hk
          · injection hk with hk; omega
          · exact h2 k hk
        · rcases h3 with h3 | h3
          · exact .inr (by rw [h3]; simp)
          · exact .inr (by simp [h3])
      · rw [if_neg hn] at h1 h3
        dsimp only at h1 h3
        refine ⟨by omega, fun k hk => ?_, ?_⟩
        · rcases List.mem_cons.mp hk with hk | hk
          · injection hk with hk; omega
          · exact h2 k hk
        · rcases h3 with h3 | h3
          · exact .inl h3
          · exact .inr (by simp [h3])
    | compression m0 =>
      dsimp only at h1 h3
      rw [apply_ite Lister.maxSize, ite_self] at h1 h3
      refine ⟨h1, fun k hk => h2 k (by simpa using hk), ?_⟩
      rcases h3 with h3 | h3
      · exact .inl h3
      · exact .inr (by simp [h3])
    | other =>
      dsimp only at h1 h3
      refine ⟨h1, fun k hk => h2 k (by simpa using hk), ?_⟩
      rcases h3 with h3 | h3
      · exact .inl h3
      · exact .inr (by simp [h3])

/-- If the list of an archive is read to its end, the main file is the largest one in it. -/
theorem listed_largest (x : Int) (ls : List Line) (h : (ls.foldl (addMessage x) {}).stopped = false) :
    (∀ n, Line.size n ∈ ls → n ≤ (ls.foldl (addMessage x) {}).maxSize) ∧
      ((ls.foldl (addMessage x) {}).maxSize = -1 ∨ Line.size (ls.foldl (addMessage x) {}).maxSize ∈ ls) :=
  (lister_step x ls {} h).2

/-- The lines for one file of an archive. -/
def fileLines (size : Int) (m0 : Bool) : List Line := [.other, .size size, .other, .compression m0]

/-- The reading is ended at the first file which is larger than the expected size or near to it, whatever follows. -/
theorem stops_at (x size : Int) (m0 : Bool) (hs : 0 ≤ size) (h : x < size ∨ (0 < x ∧ 0 < size ∧ Near size x 20)) (more : List Line) :
    ((fileLines size m0 ++ more).foldl (addMessage x) {}).maxSize = size ∧
      ((fileLines size m0 ++ more).foldl (addMessage x) {}).compressed = !m0 := by
  have hst : (decide (size > x) || sizeDiffOK size x 20) = true := by
    rcases h with h | ⟨h1, h2, h3⟩
    · simp [h]
    · simp [(sizeDiffOK_iff h2 h1).mpr h3]
  have : (fileLines size m0).foldl (addMessage x) {} = { maxSize := size, compressed := !m0, lastMax := true, stopped := true } := by
    simp [fileLines, addMessage, show size > -1 by omega, hst]
  rw [List.foldl_append, this, lister_stopped _ _ _ rfl]
  exact ⟨rfl, rfl⟩

/-- Refuted: that the main file is the largest. For the download itself the expected size is that of the archive file (the result overwrites the
expectation), so every first file in it which is larger than one volume is taken for the main file, however large the others are. -/
theorem main_not_largest (volume first largest : Int) (m0 m0' : Bool) (h0 : 0 < volume) (h1 : volume < first) (_h2 : first < largest)
    (expected : Int) (rest : List Entry) :
    (prepare expected ⟨⟨volume, true⟩ :: rest, some (fileLines first m0 ++ fileLines largest m0')⟩).1 = first := by
  have := (stops_at volume first m0 (by omega) (.inl h1) (fileLines largest m0')).1
  simpa [prepare, findLargest, h0] using this

/-- Refuted, too: a duplicate with a main file of the same size is used. If another file in its archive comes first and has nearly this size, the
reading ends there and the duplicate is left out. -/
theorem same_main_missed (main first : Int) (c m0 m0' : Bool) (volume : Int) (h1 : 0 < first) (h2 : first < main) (h3 : Near first main 20)
    (rest : List Entry) :
    matches_ (main, c) ⟨⟨volume, true⟩ :: rest, some (fileLines first m0 ++ fileLines main m0')⟩ = false := by
  have := (stops_at main first m0 (by omega) (.inr ⟨by omega, h1, h3⟩) (fileLines main m0')).1
  simp only [matches_, findLargest, if_true, Option.getD_some, beq_eq_false_iff_ne, ne_eq, Prod.mk.injEq]
  rw [this]
  omega

/-- Refuted: unrar has a minute. As soon as the clock shows another second than at the begin it is ended, whatever the limit is. -/
theorem ended_after_a_second (running : Bool) (start timeout now : Int) (h : start < now) : waits running start timeout now = false := by
  simp [waits, show ¬ start ≥ now by omega]

/-- And if the clock was set back it is waited for without a limit, until the clock is at the begin again. -/
theorem clock_back_waits (start timeout now : Int) (ht : 0 < timeout) (h : now ≤ start) : waits true start timeout now = true := by
  simp [waits, h]; omega

/-- If unrar was ended before it wrote anything about a file, nothing is known of the main file: then all duplicates are used without comparing. -/
theorem nothing_heard {force : Bool} {name key : String} {expected : Int} (he : 0 < expected) {volume : Int} {rest : List Entry} {hist : List Hist} {h : Hist} :
    h ∈ request force name key expected ⟨⟨volume, true⟩ :: rest, some []⟩ hist ↔
      h ∈ hist ∧ force = false ∧ h.nzb = true ∧ h.force = false ∧ Dupe.SameTitle h.name h.key name key := by
  rw [sources_iff he]
  have : ¬ Known expected ⟨⟨volume, true⟩ :: rest, some []⟩ := by
    intro hk
    have := hk.1
    simp [prepare, findLargest] at this
  grind

def total (hist : List Hist) : Int := (hist.map (·.extra)).sum

theorem total_map (id : Nat) (n : Int) : ∀ (hist : List Hist), (hist.map (·.id)).Nodup → (∃ h ∈ hist, h.nzb = true ∧ h.id = id) →
    total (hist.map fun h => if h.nzb && h.id == id then { h with extra := h.extra - n } else h) = total hist - n
  | [], _, h => by simp at h
  | a :: hist, hd, h => by
    simp only [List.map_cons, List.nodup_cons] at hd
    unfold total at *
    simp only [List.map_cons, List.sum_cons]
    by_cases ha : (a.nzb && a.id == id) = true
    · rw [if_pos ha]
      have haid : a.id = id := by simp at ha; exact ha.2
      have : (hist.map fun h => if h.nzb && h.id == id then { h with extra := h.extra - n } else h) = hist := by
        conv => rhs; rw [← List.map_id hist]
        apply List.map_congr_left
        intro x hx
        have : x.id ≠ id := fun hh => hd.1 (List.mem_map.mpr ⟨x, hx, by rw [hh, haid]⟩)
        simp [this]
      rw [this]
      dsimp only
      omega
    · rw [if_neg ha]
      have hex : ∃ h ∈ hist, h.nzb = true ∧ h.id = id := by
        obtain ⟨x, hx, h1, h2⟩ := h
        rcases List.mem_cons.mp hx with rfl | hx
        · exact absurd (by simp [h1, h2]) ha
        · exact ⟨x, hx, h1, h2⟩
      have := total_map id n hist hd.2 hex
      unfold total at this
      rw [this]
      omega

theorem map_ids (id : Nat) (n : Int) (hist : List Hist) :
    (hist.map fun h => if h.nzb && h.id == id then { h with extra := h.extra - n } else h).map (fun h => (h.id, h.nzb)) =
      hist.map fun h => (h.id, h.nzb) := by
  rw [List.map_map]
  apply List.map_congr_left
  intro x _
  simp only [Function.comp]
  split <;> rfl

/-- What a download is given of other ones is what they lose: the sum over the download and the history does not change, if the used sources are still
in the history. -/
theorem stat_total : ∀ (used : List (Nat × Int)) (hist : List Hist) (own : Int), (hist.map (·.id)).Nodup → (∀ u ∈ used, 0 ≤ u.2) →
    (∀ u ∈ used, u.2 > 0 → ∃ h ∈ hist, h.nzb = true ∧ h.id = u.1) →
    total (stat hist own used).1 + (stat hist own used).2 = total hist + own
  | [], hist, own, _, _, _ => by simp [stat]
  | (id, n) :: us, hist, own, hd, hn, hx => by
    simp only [stat]
    have hn0 : 0 ≤ n := hn (id, n) (by simp)
    by_cases h : n > 0
    · rw [if_pos h]
      have hex := hx (id, n) (by simp) h
      have hids := map_ids id n hist
      rw [stat_total us _ (own + n) ?_ (fun u hu => hn u (by simp [hu])) ?_, total_map id n hist hd hex]
      · omega
      · have := congrArg (List.map Prod.fst) hids
        simp only [List.map_map, Function.comp_def] at this ⊢
        rw [this]
        exact hd
      · intro u hu hu0
        obtain ⟨x, hx1, hx2, hx3⟩ := hx u (by simp [hu]) hu0
        have hmem : (x.id, x.nzb) ∈ hist.map fun h => (h.id, h.nzb) := List.mem_map.mpr ⟨x, hx1, rfl⟩
        rw [← hids] at hmem
        obtain ⟨y, hy1, hy2⟩ := List.mem_map.mp hmem
        injection hy2 with hy2 hy3
        exact ⟨y, hy1, by rw [hy3, hx2], by rw [hy2, hx3]⟩
    · rw [if_neg h, stat_total us hist (own + n) hd (fun u hu => hn u (by simp [hu])) (fun u hu => hx u (by simp [hu]))]
      omega

def Same (a b : Bytes) : Prop := a.map WildMask.lower = b.map WildMask.lower
def Digits (s : Bytes) : Prop := ∀ c ∈ s, 48 ≤ c ∧ c ≤ 57

theorem digits_iff (s : Bytes) : digits s = true ↔ Digits s := by simp [digits, Digits]

/-- A file is taken for a fragment of another one exactly if its name is that name with a dot and digits (or none), or if both have an extension of
three digits and the name before it is the begin of the other name. -/
theorem split_iff (a b : Bytes) : maybeSplit a b = true ↔
    (∃ x d, a = x ++ 46 :: d ∧ Same x b ∧ Digits d) ∨
    (∃ x y d e, a = x ++ 46 :: d ∧ b = y ++ 46 :: e ∧ d.length = 3 ∧ e.length = 3 ∧ Digits d ∧ Digits e ∧ Same x (b.take x.length)) := by
  have nodot : ∀ {s : Bytes}, Digits s → (46 : UInt8) ∉ s := by
    intro s hs hm
    have := (hs 46 hm).1
    exact absurd this (by decide)
  unfold maybeSplit
  rw [Bool.or_eq_true]
  refine or_congr ?_ ?_
  · simp only [Rpc.eqNoCase, Bool.and_eq_true, beq_iff_eq, List.take_length]
    constructor
    · rintro ⟨h1, h2⟩
      split at h2
      · rename_i c r hc
        simp only [Bool.and_eq_true, beq_iff_eq, digits_iff] at h2
        refine ⟨a.take b.length, r, ?_, h1, h2.2⟩
        conv => lhs; rw [← List.take_append_drop b.length a]
        rw [hc, h2.1]
      · exact absurd h2 (by decide)
    · rintro ⟨x, d, rfl, h1, h2⟩
      have hl : b.length = x.length := by simpa [Same] using (congrArg List.length h1).symm
      rw [hl, List.take_left' rfl, List.drop_left' rfl]
      exact ⟨h1, by simp [(digits_iff d).mpr h2]⟩
  · constructor
    · intro h
      split at h
      · rename_i i j hi hj
        obtain ⟨x, d, rfl, rfl, -⟩ := FileName.lastIdx_some hi
        obtain ⟨y, e, rfl, rfl, -⟩ := FileName.lastIdx_some hj
        simp only [Rpc.eqNoCase, Bool.and_eq_true, beq_iff_eq, digits_iff, List.length_append, List.length_cons] at h
        obtain ⟨⟨⟨⟨h1, h2⟩, h3⟩, h4⟩, h5⟩ := h
        rw [List.take_left' rfl] at h3
        rw [show x ++ 46 :: d = (x ++ [46]) ++ d by simp, List.drop_left' (by simp)] at h4
        rw [show y ++ 46 :: e = (y ++ [46]) ++ e by simp, List.drop_left' (by simp)] at h5
        exact ⟨x, y, d, e, rfl, rfl, by omega, by omega, h4, h5, h3⟩
      · exact absurd h (by decide)
    · rintro ⟨x, y, d, e, rfl, rfl, h1, h2, h3, h4, h5⟩
      rw [FileName.lastIdx_append x (nodot h3), FileName.lastIdx_append y (nodot h4)]
      simp only [Rpc.eqNoCase, Bool.and_eq_true, beq_iff_eq, digits_iff, List.length_append, List.length_cons]
      refine ⟨⟨⟨⟨by omega, by omega⟩, ?_⟩, ?_⟩, ?_⟩
      · rw [List.take_left' rfl]; exact h5
      · rw [show x ++ 46 :: d = (x ++ [46]) ++ d by simp, List.drop_left' (by simp)]; exact h3
      · rw [show y ++ 46 :: e = (y ++ [46]) ++ e by simp, List.drop_left' (by simp)]; exact h4

/-- A download with an archive, and three duplicates: with the same main file, with another one, and a forced one. -/
def exDir (n : Int) : Dir := ⟨[⟨100, false⟩, ⟨500, true⟩], some (fileLines 200 false ++ fileLines n true)⟩
def exHist : List Hist :=
  [⟨1, true, false, "Film", "", exDir 5000, 0⟩, ⟨2, true, false, "film", "", exDir 4000, 0⟩, ⟨3, true, true, "Film", "", exDir 5000, 0⟩,
    ⟨4, true, false, "Other", "", exDir 5000, 0⟩]
example : (request false "Film" "" 5100 (exDir 5000) exHist).map (·.id) = [1] := by decide +kernel
example : Known 5100 (exDir 5000) := ⟨by decide +kernel, by decide +kernel⟩
example : (request false "Film" "" 9000 (exDir 5000) exHist).map (·.id) = [1, 2] := by decide +kernel
example : Near 4500 5000 20 ∧ ¬ Near 4000 5000 20 := by decide
example : (stat exHist 0 [(1, 7), (2, 0)]).1.map (·.extra) = [-7, 0, 0, 0] ∧ (stat exHist 0 [(1, 7), (2, 0)]).2 = 7 := by decide +kernel
example : maybeSplit (lit "film.avi.01") (lit "Film.AVI") = true ∧ maybeSplit (lit "film.001") (lit "film2.002") = true ∧
    maybeSplit (lit "film.r01") (lit "film.avi") = false := by decide +kernel

end Verif.DupeScan
