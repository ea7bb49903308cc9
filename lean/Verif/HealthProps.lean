/-
C24, C53: the health of a download and the health check.
-/
import Verif.Health
import Verif.CountersProps

namespace Verif.Counters

/-! ### Specification -/

/-- Numbers which belong together: of `S` bytes in all, `P` in par2-files, `F` failed, `Q` of these in par2-files. The bound is 4 petabytes. -/
structure Sizes (S P F Q : Int) : Prop where
  par : 0 ≤ Q ∧ Q ≤ P
  other : 0 ≤ F - Q ∧ F - Q ≤ S - P
  small : S ≤ 2 ^ 52

/-- The share of the data (without par2-files) which has not failed, in per mille, rounded down. -/
def goodShare (S P F Q : Int) : Int := (S - P - (F - Q)) * 1000 / (S - P)

/-! ### The sizes of an entry -/

theorem tally_le {g h : File → Int} {l : List File} (hgh : ∀ f ∈ l, g f ≤ h f) : tally g l ≤ tally h l := by
  induction l with
  | nil => simp [tally]
  | cons f l ih =>
    rw [tally_cons, tally_cons]
    have := hgh f List.mem_cons_self
    have := ih (fun x hx => hgh x (List.mem_cons_of_mem _ hx))
    omega

theorem tally_sub (g h : File → Int) (l : List File) : tally (fun f => g f - h f) l = tally g l - tally h l := by
  induction l with
  | nil => rfl
  | cons f l ih => rw [tally_cons, tally_cons, tally_cons, ih]; omega

theorem tally_add (g h : File → Int) (l : List File) : tally (fun f => g f + h f) l = tally g l + tally h l := by
  induction l with
  | nil => rfl
  | cons f l ih => rw [tally_cons, tally_cons, tally_cons, ih]; omega

theorem tally_zero (l : List File) : tally (fun _ => 0) l = 0 := by
  induction l with
  | nil => rfl
  | cons f l ih => rw [tally_cons, ih]; rfl

/-- The counters of an entry in a good state are such numbers. -/
theorem good_sizes {n : Nzb} {done : List File} (h : Good n done) (hs : n.size ≤ 2 ^ 52) :
    Sizes n.size n.parSize n.curFailed n.parCurFailed := by
  obtain ⟨⟨e1, e2, e3, e4, e5, e6, e7, e8, e9, e10, e11, e12, e13⟩, ⟨w1, w2, w3, w4, w5, w6, w7, w8, w9, w10⟩, hz, hd, hu⟩ := h
  have key : ∀ l : List File, (∀ f ∈ l, Sized f) →
      0 ≤ tally (fun f => only f.par (f.missed + f.failed)) l ∧
      tally (fun f => only f.par (f.missed + f.failed)) l ≤ tally (fun f => only f.par f.size) l ∧
      0 ≤ tally (fun f => only (!f.par) (f.missed + f.failed)) l ∧
      tally (fun f => only (!f.par) (f.missed + f.failed)) l ≤ tally (fun f => only (!f.par) f.size) l := by
    intro l hl
    have z := tally_zero l
    refine ⟨?_, ?_, ?_, ?_⟩
    · rw [← z]
      apply tally_le
      intro f hf
      have := hl f hf
      unfold Sized at this
      cases f.par <;> simp only [only_true, only_false] <;> omega
    · apply tally_le
      intro f hf
      have := hl f hf
      unfold Sized at this
      cases f.par <;> simp only [only_true, only_false] <;> omega
    · rw [← z]
      apply tally_le
      intro f hf
      have := hl f hf
      unfold Sized at this
      cases f.par <;> simp only [only_true, only_false, Bool.not_true, Bool.not_false] <;> omega
    · apply tally_le
      intro f hf
      have := hl f hf
      unfold Sized at this
      cases f.par <;> simp only [only_true, only_false, Bool.not_true, Bool.not_false] <;> omega
  have split : ∀ (g : File → Int) (l : List File), tally g l = tally (fun f => only f.par (g f)) l + tally (fun f => only (!f.par) (g f)) l := by
    intro g l
    rw [← tally_add]
    unfold tally
    congr 1
    apply List.map_congr_left
    intro f _
    cases f.par <;> simp [only]
  have sumP : ∀ l : List File, tally (fun f => only f.par (f.missed + f.failed)) l =
      tally (fun f => only f.par f.missed) l + tally (fun f => only f.par f.failed) l := by
    intro l
    rw [← tally_add]
    unfold tally
    congr 1
    apply List.map_congr_left
    intro f _
    cases f.par <;> simp [only]
  have k1 := key n.files hz
  have k2 := key done (fun f hf => (hd f hf).1)
  have a1 := split (fun f => f.missed + f.failed) n.files
  have a2 := split (fun f => f.missed + f.failed) done
  have a3 := split (·.size) n.files
  have a4 := split (·.size) done
  have a5 := tally_add (·.missed) (·.failed) n.files
  have a6 := sumP n.files
  refine ⟨⟨?_, ?_⟩, ⟨?_, ?_⟩, hs⟩ <;> omega

/-! ### C24 -/

theorem int64_of {x : Int} (h1 : -2 ^ 63 ≤ x) (h2 : x < 2 ^ 63) : int64 x = some x := by
  unfold int64
  rw [if_pos ⟨h1, h2⟩]

theorem int32_of {x : Int} (h1 : -2 ^ 31 ≤ x) (h2 : x < 2 ^ 31) : int32 x = some x := by
  unfold int32
  rw [if_pos ⟨h1, h2⟩]

theorem toInt_of {x : Int} (h1 : 0 ≤ x) (h2 : x ≤ 1000) : toInt x = x := by
  unfold toInt Int.bmod
  have : x % 4294967296 = x := Int.emod_eq_of_lt h1 (by omega)
  rw [show ((4294967296 : Nat) : Int) = 4294967296 from rfl, this]
  rw [if_pos (by omega)]

theorem share_bounds {a b : Int} (hb : 0 < b) (h0 : 0 ≤ a) (hab : a ≤ b) : 0 ≤ a * 1000 / b ∧ a * 1000 / b ≤ 1000 := by
  constructor
  · exact Int.ediv_nonneg (by omega) (by omega)
  · apply Int.ediv_le_of_le_mul hb
    omega

/-- **C24.** The health of an entry is defined and is the share of good data in per mille, 1000 if there is no data but par2-files; -/
theorem health_is_share {n : Nzb} (h : Sizes n.size n.parSize n.curFailed n.parCurFailed) :
    calcHealth n = some (if n.size = n.parSize then 1000 else goodShare n.size n.parSize n.curFailed n.parCurFailed) := by
  obtain ⟨⟨p1, p2⟩, ⟨o1, o2⟩, s⟩ := h
  unfold calcHealth goodShare
  by_cases hp : n.size = n.parSize
  · rw [if_pos (Or.inr hp), if_pos hp]
  · rw [if_neg hp]
    have hN : 0 < n.size - n.parSize := by omega
    by_cases hf : n.curFailed = 0
    · rw [if_pos (Or.inl hf)]
      have : n.curFailed - n.parCurFailed = 0 := by omega
      rw [this, Int.sub_zero, Int.mul_ediv_cancel_left _ (by omega)]
    · rw [if_neg (by omega)]
      have hb := share_bounds (a := n.size - n.parSize - (n.curFailed - n.parCurFailed)) hN (by omega) (by omega)
      rw [int64_of (by omega) (by omega), int64_of (by omega) (by omega)]
      dsimp only [bind, Option.bind]
      rw [Int.tdiv_eq_ediv_of_nonneg (by omega)]
      generalize hx : (n.size - n.parSize - (n.curFailed - n.parCurFailed)) * 1000 / (n.size - n.parSize) = x at *
      rw [toInt_of (by omega) (by omega)]
      rw [if_neg]
      · rfl
      · rintro ⟨h1, h2⟩
        subst h1
        have := Int.ediv_mul_le ((n.size - n.parSize - (n.curFailed - n.parCurFailed)) * 1000) (show n.size - n.parSize ≠ 0 by omega)
        rw [hx] at this
        omega

/-- ... it is within 0..1000, and 1000 exactly if no data but par2-data failed. -/
theorem health_bounds {n : Nzb} (h : Sizes n.size n.parSize n.curFailed n.parCurFailed) :
    ∃ x, calcHealth n = some x ∧ 0 ≤ x ∧ x ≤ 1000 ∧ (x = 1000 ↔ n.curFailed = n.parCurFailed) := by
  refine ⟨_, health_is_share h, ?_⟩
  obtain ⟨⟨p1, p2⟩, ⟨o1, o2⟩, s⟩ := h
  unfold goodShare
  by_cases hp : n.size = n.parSize
  · rw [if_pos hp]
    refine ⟨by decide, by decide, ?_⟩
    constructor
    · intro; omega
    · intro; rfl
  · rw [if_neg hp]
    have hN : 0 < n.size - n.parSize := by omega
    have hb := share_bounds (a := n.size - n.parSize - (n.curFailed - n.parCurFailed)) hN (by omega) (by omega)
    refine ⟨hb.1, hb.2, ?_⟩
    constructor
    · intro hx
      have := Int.ediv_mul_le ((n.size - n.parSize - (n.curFailed - n.parCurFailed)) * 1000) (show n.size - n.parSize ≠ 0 by omega)
      rw [hx] at this
      omega
    · intro he
      have : n.curFailed - n.parCurFailed = 0 := by omega
      rw [this, Int.sub_zero, Int.mul_ediv_cancel_left _ (by omega)]

/-- The critical health: 0 if the good par2-data is more than half of all, otherwise the share which may be lost. -/
theorem critical_bounds {n : Nzb} (h : Sizes n.size n.parSize n.curFailed n.parCurFailed) (allow : Bool) :
    ∃ c, calcCriticalHealth n allow = some c ∧ 0 ≤ c ∧ c ≤ 1000 := by
  obtain ⟨⟨p1, p2⟩, ⟨o1, o2⟩, s⟩ := h
  unfold calcCriticalHealth
  by_cases h0 : n.size = 0
  · rw [if_pos h0]; exact ⟨1000, rfl, by decide, by decide⟩
  · rw [if_neg h0]
    by_cases hp : n.size = n.parSize
    · rw [if_pos hp]; exact ⟨0, rfl, by decide, by decide⟩
    · rw [if_neg hp, int64_of (x := n.parSize - n.parCurFailed) (by omega) (by omega)]
      dsimp only [bind, Option.bind]
      rw [int64_of (by omega) (by omega)]
      dsimp only
      rw [int64_of (by omega) (by omega)]
      dsimp only
      rw [if_neg (by omega)]
      generalize hg : n.parSize - n.parCurFailed = g at *
      have hG : 0 < n.size - g := by omega
      by_cases h2 : g * 2 > n.size
      · rw [if_pos h2, if_neg (by simp)]
        exact ⟨0, rfl, by decide, by decide⟩
      · rw [if_neg h2, Int.tdiv_eq_ediv_of_nonneg (by omega)]
        have hb := share_bounds (a := n.size - g * 2) hG (by omega) (by omega)
        rw [toInt_of hb.1 hb.2]
        refine ⟨_, rfl, ?_, ?_⟩ <;> (split <;> split <;> omega)

/-- The theorems apply after any history of an entry, up to 4 petabytes. -/
example {id : Nat} {files : List File} {es : List Event} (hf : ∀ f ∈ files, Fresh f) (ha : AllAllowed (newEntry id files) es)
    (hs : (run (newEntry id files) es).size ≤ 2 ^ 52) :
    ∃ x, calcHealth (run (newEntry id files) es) = some x ∧ 0 ≤ x ∧ x ≤ 1000 :=
  let ⟨x, h1, h2, h3, _⟩ := health_bounds (good_sizes (good_run ha (good_newEntry hf)) hs)
  ⟨x, h1, h2, h3⟩

example : Sizes 1000 200 95 0 ∧ Sizes 1000 200 300 100 := by
  constructor <;> constructor <;> decide

/-! ### C53: the health check -/

/-- The value of the critical health when all par2-data is good. -/
theorem critical_without_par_damage {n : Nzb} (h : Sizes n.size n.parSize n.curFailed n.parCurFailed) (hq : n.parCurFailed = 0)
    (hp : n.size ≠ n.parSize) (allow : Bool) :
    ∃ c, calcCriticalHealth n allow = some c ∧
      (c = 0 ∨ c = 850 ∧ n.parSize = 0 ∨ c = 1000 ∧ n.parSize = 0 ∨ c = (n.size - n.parSize - n.parSize) * 1000 / (n.size - n.parSize) ∧
        2 * n.parSize ≤ n.size) := by
  obtain ⟨⟨p1, p2⟩, ⟨o1, o2⟩, s⟩ := h
  unfold calcCriticalHealth
  by_cases h0 : n.size = 0
  · omega
  · rw [if_neg h0, if_neg hp, hq, Int.sub_zero, int64_of (x := n.parSize) (by omega) (by omega)]
    dsimp only [bind, Option.bind]
    rw [int64_of (by omega) (by omega)]
    dsimp only
    rw [int64_of (by omega) (by omega)]
    dsimp only
    rw [if_neg (by omega)]
    have hG : 0 < n.size - n.parSize := by omega
    by_cases h2 : n.parSize * 2 > n.size
    · rw [if_pos h2, if_neg (by simp)]
      exact ⟨0, rfl, Or.inl rfl⟩
    · rw [if_neg h2, Int.tdiv_eq_ediv_of_nonneg (by omega)]
      have hb := share_bounds (a := n.size - n.parSize * 2) hG (by omega) (by omega)
      rw [toInt_of hb.1 hb.2]
      have he : n.size - n.parSize * 2 = n.size - n.parSize - n.parSize := by omega
      rw [he] at hb ⊢
      generalize hx : (n.size - n.parSize - n.parSize) * 1000 / (n.size - n.parSize) = x at *
      have hlt : n.parSize > 0 → x < 1000 := by
        intro hpos
        have := Int.ediv_mul_le ((n.size - n.parSize - n.parSize) * 1000) (show n.size - n.parSize ≠ 0 by omega)
        rw [hx] at this
        apply Decidable.byContradiction
        intro hc
        have : x = 1000 := by omega
        subst this
        omega
      refine ⟨_, rfl, ?_⟩
      by_cases hx1 : x = 1000
      · have hz : ¬ n.parSize > 0 := fun h => by have := hlt h; omega
        rw [if_neg (show ¬ (x = 1000 ∧ n.parSize > 0) from fun h => hz h.2)]
        cases allow
        · rw [if_neg (by simp)]
          exact Or.inr (Or.inr (Or.inl ⟨hx1, by omega⟩))
        · rw [if_pos ⟨hx1, rfl⟩]
          exact Or.inr (Or.inl ⟨rfl, by omega⟩)
      · rw [if_neg (show ¬ (x = 1000 ∧ n.parSize > 0) from fun h => hx1 h.1), if_neg (show ¬ (x = 1000 ∧ _) from fun h => hx1 h.1)]
        exact Or.inr (Or.inr (Or.inr ⟨rfl, by omega⟩))

/-- **C53, partial.** As long as no par2-data has failed, an entry whose failed data is not more than its par2-data is not touched by the health check,
whatever the options. -/
theorem health_check_keeps_repairable_partial {n : Nzb} (h : Sizes n.size n.parSize n.curFailed n.parCurFailed)
    (hq : n.parCurFailed = 0) (hr : n.curFailed ≤ n.parSize) (check : HealthCheck) (dupeScan paused deleted : Bool) :
    checkHealth check dupeScan paused deleted n = some .keep := by
  unfold checkHealth
  by_cases hc : check = .none ∨ paused = true ∨ deleted = true
  · rw [if_pos hc]
  · rw [if_neg hc]
    obtain ⟨x, hx, x0, x1, x2⟩ := health_bounds h
    have hh := health_is_share h
    obtain ⟨c, hcr, c0, c1⟩ := critical_bounds h true
    rw [hx, hcr]
    dsimp only [bind, Option.bind]
    have hge : x ≥ c := by
      by_cases hp : n.size = n.parSize
      · rw [if_pos hp] at hh
        rw [hx] at hh
        injection hh with hh
        omega
      · rw [if_neg hp] at hh
        obtain ⟨c', hc', hcase⟩ := critical_without_par_damage h hq hp true
        rw [hcr] at hc'
        injection hc' with hc'
        subst hc'
        have hF : n.curFailed = n.parCurFailed → x = 1000 := x2.2
        obtain ⟨⟨p1, p2⟩, ⟨o1, o2⟩, s⟩ := h
        rcases hcase with h | ⟨_, h⟩ | ⟨_, h⟩ | ⟨h, _⟩
        · omega
        · have := hF (by omega); omega
        · have := hF (by omega); omega
        · rw [hx] at hh
          injection hh with hh
          subst hh
          subst h
          unfold goodShare
          rw [hq, Int.sub_zero]
          exact Int.ediv_le_ediv (by omega) (by omega)
    rw [if_pos hge]
    rfl

def healthFiles : List File := [exampleFile 1 800 0 false, exampleFile 2 200 0 true]

/-- 95 bytes of the data and 100 bytes of the par2-data failed. -/
def damage : List Event := [.article 1 .failed 95 [] 0, .article 2 .failed 100 [] 0]

theorem damage_good : Good (run (newEntry 1 healthFiles) damage) [] := by
  have := good_run (n := newEntry 1 healthFiles) (done := []) (es := damage)
    (by simp [AllAllowed, Allowed, damage, healthFiles, exampleFile, newEntry, addNewFile, step, articleCompleted, find, change, Nzb.new]) (good_newEntry (by simp [Fresh, healthFiles, exampleFile]))
  exact this

/-- **C53, violation.** The critical health is computed as if par2-data which failed were data to be repaired (DownloadInfo.cpp:300-301). Of a
download of 800 bytes with 200 bytes of par2-data, 95 bytes and 100 bytes of the par2-data failed: 100 good bytes of par2-data are enough to repair
95 bytes, but the download is deleted. -/
theorem health_check_deletes_repairable :
    let n := run (newEntry 1 healthFiles) damage
    Good n [] ∧ n.curFailed - n.parCurFailed = 95 ∧ n.parSize - n.parCurFailed = 100 ∧
    calcHealth n = some 881 ∧ calcCriticalHealth n true = some 888 ∧ checkHealth .delete false false false n = some .delete := by
  refine ⟨damage_good, ?_, ?_, ?_, ?_, ?_⟩ <;> decide +kernel

end Verif.Counters
