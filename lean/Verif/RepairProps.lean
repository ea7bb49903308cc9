import Verif.Repair
import Verif.ParNameProps
/-! C76: par2-files for a repair. -/
namespace Verif.Repair
open CStr WildMask

/-! ### Specification -/

/-- The number of blocks in a file according to its name; 0 for other files and the main file. -/
def blocks (f : PFile) : Int :=
  match ParName.parse f.confirmed f.name with
  | some x => if 0 < x.2 then x.2 else 0
  | none => 0

/-- All blocks in some files. -/
def total (fs : List PFile) : Int := (fs.map blocks).sum

/-- The file is in the same set as the par2-file. -/
def OfSet (parName : Bytes) (f : PFile) : Prop := ParName.same f.confirmed f.name (FileName.baseName parName) = true

/-- The files which are chosen: they have enough blocks, and none of them can be left out. -/
structure Minimal (needed : Int) (chosen : List PFile) : Prop where
  enough : needed ≤ total chosen
  needed : ∀ f ∈ chosen, total chosen - blocks f < needed

/-- A sort by the number of blocks. -/
def Sorts (sort : List Block → List Block) : Prop :=
  ∀ l, (sort l).Perm l ∧ (sort l).Pairwise (fun a b => a.count ≤ b.count)

/-! ### Lemmas -/

def counts (bl : List Block) : Int := (bl.map Block.count).sum

theorem counts_append (a b : List Block) : counts (a ++ b) = counts a + counts b := by simp [counts]

/-- What holds of the collected blocks. -/
structure Inv (files : List PFile) (bl : List Block) : Prop where
  sub : ∀ b ∈ bl, b.file ∈ files
  count : ∀ b ∈ bl, b.count = blocks b.file ∧ 0 < b.count
  nodup : (bl.map (fun b => b.file.id)).Nodup

theorem findLoop_spec (use : PFile → Bool) (files : List PFile) : ∀ (fs : List PFile) (bl : List Block) (n : Int), (∀ f ∈ fs, f ∈ files) →
    Inv files bl →
    Inv files (findLoop use fs bl n).1 ∧ (findLoop use fs bl n).2 - n = counts (findLoop use fs bl n).1 - counts bl ∧
    (∀ b ∈ bl, b ∈ (findLoop use fs bl n).1) ∧
    (∀ b ∈ (findLoop use fs bl n).1, b ∈ bl ∨ use b.file = true) ∧
    (∀ f ∈ fs, use f = true → 0 < blocks f → ∃ b ∈ (findLoop use fs bl n).1, b.file.id = f.id) := by
  intro fs
  induction fs with
  | nil =>
    intro bl n hf hi
    exact ⟨hi, by simp [findLoop], fun b hb => hb, fun b hb => Or.inl hb, fun f hf => nomatch hf⟩
  | cons f fs ih =>
    intro bl n hf hi
    have hfs : ∀ g ∈ fs, g ∈ files := fun g hg => hf g (List.mem_cons_of_mem _ hg)
    rw [findLoop]
    cases hp : ParName.parse f.confirmed f.name with
    | none =>
      dsimp only
      obtain ⟨h1, h2, h3, h4, h5⟩ := ih bl n hfs hi
      refine ⟨h1, h2, h3, h4, ?_⟩
      intro g hg hu hb
      rcases List.mem_cons.mp hg with rfl | hg
      · unfold blocks at hb; rw [hp] at hb; dsimp only at hb; exact absurd hb (by omega)
      · exact h5 g hg hu hb
    | some x =>
      dsimp only
      by_cases hc : 0 < x.2 ∧ use f = true ∧ bl.any (fun b => b.file.id == f.id) = false
      · rw [if_pos hc]
        obtain ⟨hx, hu, hany⟩ := hc
        have hbk : blocks f = x.2 := by unfold blocks; rw [hp]; dsimp only; rw [if_pos hx]
        rw [List.any_eq_false] at hany
        obtain ⟨h1, h2, h3, h4, h5⟩ := ih (bl ++ [⟨f, x.2⟩]) (n + x.2) hfs (by
          refine ⟨?_, ?_, ?_⟩
          · intro b hb
            rcases List.mem_append.mp hb with hb | hb
            · exact hi.sub b hb
            · rw [List.mem_singleton.mp hb]; exact hf f List.mem_cons_self
          · intro b hb
            rcases List.mem_append.mp hb with hb | hb
            · exact hi.count b hb
            · rw [List.mem_singleton.mp hb]; exact ⟨hbk.symm, hx⟩
          · rw [List.map_append, List.nodup_append]
            refine ⟨hi.nodup, by simp, ?_⟩
            intro a ha b hb
            rw [List.mem_map] at ha
            obtain ⟨c, hc, rfl⟩ := ha
            simp only [List.map_cons, List.map_nil, List.mem_singleton] at hb
            rw [hb]
            intro e
            exact hany c hc (by rw [beq_iff_eq]; exact e))
        refine ⟨h1, ?_, fun b hb => h3 b (List.mem_append_left _ hb), ?_, ?_⟩
        · rw [counts_append] at h2
          simp only [counts, List.map_cons, List.map_nil, List.sum_cons, List.sum_nil] at h2 ⊢
          omega
        · intro b hb
          rcases h4 b hb with h | h
          · rcases List.mem_append.mp h with h | h
            · exact Or.inl h
            · rw [List.mem_singleton.mp h]; exact Or.inr hu
          · exact Or.inr h
        · intro g hg hu hb
          rcases List.mem_cons.mp hg with rfl | hg
          · exact ⟨⟨g, x.2⟩, h3 _ (by simp), rfl⟩
          · exact h5 g hg hu hb
      · rw [if_neg hc]
        obtain ⟨h1, h2, h3, h4, h5⟩ := ih bl n hfs hi
        refine ⟨h1, h2, h3, h4, ?_⟩
        intro g hg hu hb
        rcases List.mem_cons.mp hg with rfl | hg
        · have hx : 0 < x.2 := by
            unfold blocks at hb
            rw [hp] at hb
            dsimp only at hb
            by_cases h : 0 < x.2
            · exact h
            · rw [if_neg h] at hb; exact absurd hb (by omega)
          cases ha : bl.any (fun b => b.file.id == g.id) with
          | false => exact absurd ⟨hx, hu, ha⟩ hc
          | true =>
            rw [List.any_eq_true] at ha
            obtain ⟨b, hb1, hb2⟩ := ha
            exact ⟨b, h3 b hb1, by rwa [beq_iff_eq] at hb2⟩
        · exact h5 g hg hu hb

/-- The blocks of the collected files are those of the files with their ids. -/
theorem counts_eq {files : List PFile} (hn : (files.map PFile.id).Nodup) : ∀ {bl : List Block}, Inv files bl →
    counts bl = total (files.filter (fun f => bl.any (fun b => b.file.id == f.id))) := by
  have key : ∀ (fs : List PFile), (fs.map PFile.id).Nodup → ∀ (f : PFile), f ∈ fs → ∀ (P : PFile → Bool), P f = false →
      total (fs.filter (fun g => P g || g.id == f.id)) = total (fs.filter P) + blocks f := by
    intro fs
    induction fs with
    | nil => intro _ f hf; exact nomatch hf
    | cons g fs ih =>
      intro hn f hf P hP
      rw [List.map_cons, List.nodup_cons] at hn
      rcases List.mem_cons.mp hf with rfl | hf
      · have e : fs.filter (fun g => P g || g.id == f.id) = fs.filter P := by
          apply List.filter_congr
          intro x hx
          have : (x.id == f.id) = false := by
            rw [← Bool.not_eq_true, beq_iff_eq]
            intro h
            exact hn.1 (by rw [← h]; exact List.mem_map_of_mem hx)
          rw [this, Bool.or_false]
        rw [List.filter_cons, List.filter_cons, hP, e]
        simp only [beq_self_eq_true, Bool.or_true, if_true, Bool.false_eq_true, if_false]
        unfold total
        rw [List.map_cons, List.sum_cons]
        omega
      · have hne : (g.id == f.id) = false := by
          rw [← Bool.not_eq_true, beq_iff_eq]
          intro h
          exact hn.1 (by rw [h]; exact List.mem_map_of_mem hf)
        rw [List.filter_cons, List.filter_cons, hne, Bool.or_false]
        have := ih hn.2 f hf P hP
        split
        · unfold total at this ⊢
          rw [List.map_cons, List.sum_cons, List.map_cons, List.sum_cons, this]
          omega
        · exact this
  intro bl
  induction bl with
  | nil =>
    intro _
    have : files.filter (fun f => ([] : List Block).any (fun b => b.file.id == f.id)) = [] := by
      rw [List.filter_eq_nil_iff]; simp
    rw [this]; rfl
  | cons b bl ih =>
    intro hi
    have hi' : Inv files bl := by
      refine ⟨fun c hc => hi.sub c (List.mem_cons_of_mem _ hc), fun c hc => hi.count c (List.mem_cons_of_mem _ hc), ?_⟩
      have := hi.nodup
      rw [List.map_cons, List.nodup_cons] at this
      exact this.2
    have hb := hi.count b List.mem_cons_self
    have h1 := key files hn b.file (hi.sub b List.mem_cons_self) (fun f => bl.any (fun c => c.file.id == f.id)) (by
      rw [List.any_eq_false]
      intro c hc
      rw [beq_iff_eq]
      intro h
      have := hi.nodup
      rw [List.map_cons, List.nodup_cons] at this
      exact this.1 (by rw [← h]; exact List.mem_map_of_mem hc))
    have e : files.filter (fun f => (b :: bl).any (fun c => c.file.id == f.id)) =
        files.filter (fun g => bl.any (fun c => c.file.id == g.id) || g.id == b.file.id) := by
      apply List.filter_congr
      intro x _
      rw [List.any_cons, Bool.or_comm]
      congr 1
      rw [Bool.eq_iff_iff, beq_iff_eq, beq_iff_eq]
      exact eq_comm
    rw [e, h1, ← ih hi', ← hb.1]
    simp [counts, Int.add_comm]

theorem blocks_nonneg (f : PFile) : 0 ≤ blocks f := by
  unfold blocks
  split
  · split <;> omega
  · omega

theorem total_cons (f : PFile) (l : List PFile) : total (f :: l) = blocks f + total l := by simp [total]

theorem total_filter_le (P : PFile → Bool) (l : List PFile) : total (l.filter P) ≤ total l := by
  induction l with
  | nil => simp
  | cons f l ih =>
    rw [List.filter_cons, total_cons]
    have := blocks_nonneg f
    split
    · rw [total_cons]; omega
    · omega

theorem total_filter_all {P : PFile → Bool} {l : List PFile} (h : ∀ f ∈ l, 0 < blocks f → P f = true) : total (l.filter P) = total l := by
  induction l with
  | nil => rfl
  | cons f l ih =>
    have ih := ih (fun g hg => h g (List.mem_cons_of_mem _ hg))
    rw [List.filter_cons, total_cons]
    have hb := blocks_nonneg f
    cases hP : P f with
    | true => rw [if_pos rfl, total_cons, ih]
    | false =>
      rw [if_neg (by decide), ih]
      have : ¬ 0 < blocks f := fun h0 => by rw [h f List.mem_cons_self h0] at hP; exact nomatch hP
      omega

/-- One pass. -/
theorem findPars_spec {files : List PFile} {parName : Bytes} (hp : ParName.IsPar true (FileName.baseName parName)) (strict exact : Bool)
    {bl : List Block} (hi : Inv files bl) :
    Inv files (findPars files parName bl strict exact).1 ∧
    (findPars files parName bl strict exact).2 = counts (findPars files parName bl strict exact).1 - counts bl ∧
    (exact = true → ∀ b ∈ (findPars files parName bl strict exact).1, b ∈ bl ∨ OfSet parName b.file) ∧
    (exact = true → ∀ f ∈ files, OfSet parName f → 0 < blocks f → ∃ b ∈ (findPars files parName bl strict exact).1, b.file.id = f.id) ∧
    (exact = false → strict = false → ∀ f ∈ files, 0 < blocks f → ∃ b ∈ (findPars files parName bl strict exact).1, b.file.id = f.id) := by
  unfold findPars
  unfold ParName.IsPar at hp
  rw [Option.isSome_iff_exists] at hp
  obtain ⟨x, hx⟩ := hp
  rw [hx]
  dsimp only
  generalize (if x.1 = 0 then (FileName.baseName parName).take 1023 else (FileName.baseName parName).take x.1).map lower = mb
  obtain ⟨h1, h2, -, h4, h5⟩ := findLoop_spec (useFile strict exact parName mb) files files bl 0 (fun f hf => hf) hi
  refine ⟨h1, by omega, ?_, ?_, ?_⟩
  · rintro rfl b hb
    rcases h4 b hb with h | h
    · exact Or.inl h
    · unfold useFile at h; rw [if_pos rfl] at h; exact Or.inr h
  · rintro rfl f hf hs hb
    refine h5 f hf ?_ hb
    unfold useFile
    rw [if_pos rfl]
    exact hs
  · rintro rfl rfl f hf hb
    refine h5 f hf ?_ hb
    unfold useFile
    rw [if_neg (by decide), if_neg (by decide)]

theorem inv_nil (files : List PFile) : Inv files [] :=
  ⟨fun _ hb => absurd hb (List.not_mem_nil), fun _ hb => absurd hb (List.not_mem_nil), List.nodup_nil⟩

theorem counts_perm {a b : List Block} (h : a.Perm b) : counts a = counts b := by
  unfold counts
  induction h with
  | nil => rfl
  | cons x _ ih => rw [List.map_cons, List.map_cons, List.sum_cons, List.sum_cons, ih]
  | swap x y l => simp only [List.map_cons, List.sum_cons]; omega
  | trans _ _ h1 h2 => exact h1.trans h2

/-- The three passes. -/
theorem available_spec {files : List PFile} {parName : Bytes} (hp : ParName.IsPar true (FileName.baseName parName))
    (hn : (files.map PFile.id).Nodup) (needed : Int) :
    Inv files (available files parName needed).1 ∧ (available files parName needed).2 = counts (available files parName needed).1 ∧
    ((available files parName needed).2 < needed → (available files parName needed).2 = total files) ∧
    (needed ≤ total (files.filter (fun f => ParName.same f.confirmed f.name (FileName.baseName parName))) →
      ∀ b ∈ (available files parName needed).1, OfSet parName b.file) := by
  obtain ⟨a1, a2, a3, a4, -⟩ := findPars_spec hp true true (inv_nil files)
  obtain ⟨b1, b2, -, -, -⟩ := findPars_spec hp true false a1
  have hc0 : counts [] = 0 := rfl
  -- the files of the set are all found in the first pass
  have hset : (findPars files parName [] true true).2 < needed →
      ¬ needed ≤ total (files.filter (fun f => ParName.same f.confirmed f.name (FileName.baseName parName))) := by
    intro hlt hle
    have h1 := counts_eq hn a1
    have hsub : total (files.filter (fun f => ParName.same f.confirmed f.name (FileName.baseName parName))) ≤
        total (files.filter (fun f => (findPars files parName [] true true).1.any (fun b => b.file.id == f.id))) := by
      have e := total_filter_all (P := fun f => (findPars files parName [] true true).1.any (fun b => b.file.id == f.id))
        (l := files.filter (fun f => ParName.same f.confirmed f.name (FileName.baseName parName))) (by
          intro f hf hb
          rw [List.mem_filter] at hf
          obtain ⟨b, hb1, hb2⟩ := a4 rfl f hf.1 hf.2 hb
          rw [List.any_eq_true]
          exact ⟨b, hb1, by rw [beq_iff_eq]; exact hb2⟩)
      rw [← e, List.filter_filter]
      have : files.filter (fun f => (findPars files parName [] true true).1.any (fun b => b.file.id == f.id) &&
          ParName.same f.confirmed f.name (FileName.baseName parName)) =
          (files.filter (fun f => (findPars files parName [] true true).1.any (fun b => b.file.id == f.id))).filter
            (fun f => ParName.same f.confirmed f.name (FileName.baseName parName)) := by
        rw [List.filter_filter]
        apply List.filter_congr
        intro x _
        rw [Bool.and_comm]
      rw [this]
      exact total_filter_le _ _
    omega
  have hall : ∀ {bl : List Block}, Inv files bl → counts (findPars files parName bl false false).1 = total files := by
    intro bl hi
    obtain ⟨c1, -, -, -, c5⟩ := findPars_spec hp false false hi
    rw [counts_eq hn c1]
    apply total_filter_all
    intro f hf hb
    obtain ⟨b, hb1, hb2⟩ := c5 rfl rfl f hf hb
    rw [List.any_eq_true]
    exact ⟨b, hb1, by rw [beq_iff_eq]; exact hb2⟩
  unfold available
  dsimp only
  by_cases h1 : (findPars files parName [] true true).2 < needed
  · rw [if_pos h1]
    dsimp only
    by_cases h2 : (findPars files parName [] true true).2 + (findPars files parName (findPars files parName [] true true).1 true false).2 < needed
    · rw [if_pos h2]
      dsimp only
      obtain ⟨c1, c2, -, -, -⟩ := findPars_spec hp false false b1
      have := hall b1
      exact ⟨c1, by omega, fun _ => by omega, fun h => absurd h (hset h1)⟩
    · rw [if_neg h2]
      dsimp only
      exact ⟨b1, by omega, fun h => absurd h h2, fun h => absurd h (hset h1)⟩
  · rw [if_neg h1, if_neg h1]
    refine ⟨a1, by omega, fun h => absurd h h1, fun _ b hb => ?_⟩
    rcases a3 rfl b hb with h | h
    · exact nomatch h
    · exact h

theorem collect_spec : ∀ (l sel : List Block) (n : Int), ∃ pre rest, l = pre ++ rest ∧ (collect l sel n).1 = pre.reverse ++ sel ∧
    (collect l sel n).2 = n - counts pre ∧ (n - counts pre ≤ 0 ∨ rest = []) := by
  intro l
  induction l with
  | nil => intro sel n; exact ⟨[], [], rfl, rfl, by simp [collect, counts], Or.inr rfl⟩
  | cons b l ih =>
    intro sel n
    rw [collect]
    by_cases h : 0 < n
    · rw [if_pos h]
      obtain ⟨pre, rest, h1, h2, h3, h4⟩ := ih (b :: sel) (n - b.count)
      have hc : counts (b :: pre) = b.count + counts pre := by simp [counts]
      refine ⟨b :: pre, rest, by rw [h1]; rfl, by rw [h2]; simp, by omega, ?_⟩
      rcases h4 with h4 | h4
      · exact Or.inl (by omega)
      · exact Or.inr h4
    · rw [if_neg h]
      have : counts [] = 0 := rfl
      exact ⟨[], b :: l, rfl, rfl, by dsimp only; omega, Or.inl (by omega)⟩

theorem discard_spec : ∀ (l : List Block) (n : Int), n ≤ 0 → (∀ b ∈ l, 0 < b.count) →
    (discard l n).2 ≤ 0 ∧ n ≤ (discard l n).2 ∧ (discard l n).2 = n + counts l - counts (discard l n).1 ∧
    (discard l n).1.Sublist l ∧ ∀ b ∈ (discard l n).1, 0 < (discard l n).2 + b.count := by
  intro l
  induction l with
  | nil => intro n hn _; exact ⟨hn, by simp [discard], by simp [discard], List.Sublist.refl _, fun b hb => nomatch hb⟩
  | cons c l ih =>
    intro n hn hpos
    have hc := hpos c List.mem_cons_self
    have hpos' : ∀ b ∈ l, 0 < b.count := fun b hb => hpos b (List.mem_cons_of_mem _ hb)
    have e : counts (c :: l) = c.count + counts l := by simp [counts]
    rw [discard]
    by_cases h : n + c.count ≤ 0
    · rw [if_pos h]
      obtain ⟨h1, h2, h3, h4, h5⟩ := ih (n + c.count) h hpos'
      exact ⟨h1, by omega, by omega, h4.trans (List.sublist_cons_self _ _), h5⟩
    · rw [if_neg h]
      obtain ⟨h1, h2, h3, h4, h5⟩ := ih n hn hpos'
      dsimp only
      have e2 : counts (c :: (discard l n).1) = c.count + counts (discard l n).1 := by simp [counts]
      refine ⟨h1, h2, by omega, h4.cons_cons c, ?_⟩
      intro b hb
      rcases List.mem_cons.mp hb with rfl | hb
      · omega
      · exact h5 b hb

/-! ### C76 -/

/-- **C76.** If the par2-files in the queue have enough blocks, files are chosen which have enough of them and of which
none is superfluous; exactly these are unpaused (if they are paused) and get a higher priority, and the caller waits for
them. If the files of the set of the par2-file have enough blocks, only these are chosen. -/
theorem enough_is_unpaused {sort : List Block → List Block} (hs : Sorts sort) {files : List PFile} {parName : Bytes}
    (hp : ParName.IsPar true (FileName.baseName parName)) (hn : (files.map PFile.id).Nodup) {needed : Int} (h : needed ≤ total files) :
    ∃ chosen : List PFile, (∀ f ∈ chosen, f ∈ files) ∧ chosen.Nodup ∧ (0 < needed → Minimal needed chosen) ∧ (needed ≤ 0 → chosen = []) ∧
      (requestMore sort files parName needed).ok = true ∧
      (requestMore sort files parName needed).files =
        files.map (fun f => if f ∈ chosen ∧ f.paused = true then { f with paused := false, extra := true } else f) ∧
      (needed ≤ total (files.filter (fun f => ParName.same f.confirmed f.name (FileName.baseName parName))) →
        ∀ f ∈ chosen, OfSet parName f) := by
  obtain ⟨hi, hf, hlt, hset⟩ := available_spec hp hn needed
  unfold requestMore
  dsimp only
  generalize available files parName needed = av at *
  have hge : needed ≤ av.2 := by
    by_cases hc : av.2 < needed
    · have := hlt hc; omega
    · omega
  rw [if_pos hge]
  dsimp only
  obtain ⟨hperm, -⟩ := hs av.1
  obtain ⟨pre, rest, h1, h2, h3, h4⟩ := collect_spec (sort av.1) [] needed
  have hmem : ∀ b ∈ pre, b ∈ av.1 := fun b hb => hperm.subset (by rw [h1]; exact List.mem_append_left _ hb)
  have hcounts : counts (sort av.1) = counts av.1 := counts_perm hperm
  have hle : (collect (sort av.1) [] needed).2 ≤ 0 := by
    rw [h3]
    rcases h4 with h4 | h4
    · exact h4
    · rw [h4, List.append_nil] at h1
      rw [← h1]
      omega
  have hcrev : counts pre.reverse = counts pre := counts_perm pre.reverse_perm
  obtain ⟨d1, d2, d3, d4, d5⟩ := discard_spec (collect (sort av.1) [] needed).1 _ hle (by
    intro b hb
    rw [h2, List.append_nil, List.mem_reverse] at hb
    exact (hi.count b (hmem b hb)).2)
  generalize discard (collect (sort av.1) [] needed).1 (collect (sort av.1) [] needed).2 = d at *
  rw [h3, h2, List.append_nil, hcrev] at d3
  have hdm : ∀ b ∈ d.1, b ∈ av.1 := by
    intro b hb
    have := d4.subset hb
    rw [h2, List.append_nil, List.mem_reverse] at this
    exact hmem b this
  have htot : total (d.1.map Block.file) = counts d.1 := by
    unfold total counts
    rw [List.map_map]
    congr 1
    apply List.map_congr_left
    intro b hb
    exact (hi.count b (hdm b hb)).1.symm
  have hid : ∀ f ∈ files, (d.1.any (fun b => b.file.id == f.id) = true ↔ f ∈ d.1.map Block.file) := by
    intro f hf
    rw [List.any_eq_true, List.mem_map]
    constructor
    · rintro ⟨b, hb, e⟩
      rw [beq_iff_eq] at e
      refine ⟨b, hb, ?_⟩
      have inj : ∀ (fs : List PFile), (fs.map PFile.id).Nodup → ∀ a ∈ fs, ∀ c ∈ fs, a.id = c.id → a = c := by
        intro fs
        induction fs with
        | nil => intro _ a ha; exact nomatch ha
        | cons g fs ih =>
          intro hn a ha c hc e
          rw [List.map_cons, List.nodup_cons] at hn
          rcases List.mem_cons.mp ha with rfl | ha <;> rcases List.mem_cons.mp hc with rfl | hc
          · rfl
          · exact absurd (by rw [e]; exact List.mem_map_of_mem hc) hn.1
          · rename_i ha'
            exact absurd (by rw [← e]; exact List.mem_map_of_mem ha') hn.1
          · exact ih hn.2 a ha c hc e
      exact inj files hn _ (hi.sub b (hdm b hb)) _ hf e
    · rintro ⟨b, hb, rfl⟩
      exact ⟨b, hb, by simp⟩
  refine ⟨d.1.map Block.file, ?_, ?_, ?_, ?_, ?_, ?_, ?_⟩
  · intro f hf
    rw [List.mem_map] at hf
    obtain ⟨b, hb, rfl⟩ := hf
    exact hi.sub b (hdm b hb)
  · have nd : (pre.reverse.map (fun b => b.file.id)).Nodup := by
      have h5 : ((sort av.1).map (fun b => b.file.id)).Nodup := (hperm.map _).nodup_iff.mpr hi.nodup
      rw [h1, List.map_append, List.nodup_append] at h5
      exact ((pre.reverse_perm.map _).nodup_iff).mpr h5.1
    rw [h2, List.append_nil] at d4
    have := (d4.map (fun b => b.file.id)).nodup nd
    have e : d.1.map (fun b => b.file.id) = (d.1.map Block.file).map PFile.id := by rw [List.map_map]; rfl
    rw [e] at this
    unfold List.Nodup at this ⊢
    rw [List.pairwise_map] at this
    exact this.imp (fun h e => h (by rw [e]))
  · intro hpos
    refine ⟨by omega, ?_⟩
    intro f hf
    rw [List.mem_map] at hf
    obtain ⟨b, hb, rfl⟩ := hf
    have := d5 b hb
    have := (hi.count b (hdm b hb)).1
    omega
  · intro hneg
    have hpre : pre = [] := by
      cases hpr : pre with
      | nil => rfl
      | cons b l =>
        exfalso
        rw [hpr] at h1
        have hcol : (collect (sort av.1) [] needed).1 = [] := by rw [h1, List.cons_append, collect, if_neg (by omega)]
        rw [hcol, hpr] at h2
        simp at h2
    rw [h2, hpre] at d4
    have := List.sublist_nil.mp d4
    rw [this]; rfl
  · rw [decide_eq_true d1, Bool.true_or]
  · apply List.map_congr_left
    intro f hf
    unfold unpause
    by_cases hm : f ∈ d.1.map Block.file
    · rw [(hid f hf).mpr hm, Bool.true_and]
      simp only [hm, true_and]
    · have : d.1.any (fun b => b.file.id == f.id) = false := by
        rw [← Bool.not_eq_true, hid f hf]; exact hm
      rw [this, Bool.false_and, if_neg (by decide), if_neg (fun h => hm h.1)]
  · intro hset2 f hf
    rw [List.mem_map] at hf
    obtain ⟨b, hb, rfl⟩ := hf
    exact hset hset2 b (hdm b hb)

/-- **C76.** If there are not enough blocks, nothing is unpaused; all blocks are reported, and the caller waits only if a
par2-file is still to be downloaded. -/
theorem not_enough {sort : List Block → List Block} {files : List PFile} {parName : Bytes}
    (hp : ParName.IsPar true (FileName.baseName parName)) (hn : (files.map PFile.id).Nodup) {needed : Int} (hpos : 0 < needed)
    (h : total files < needed) :
    requestMore sort files parName needed = ⟨files, total files, files.any (fun f => f.par && !f.paused)⟩ := by
  obtain ⟨hi, hf, hlt, -⟩ := available_spec hp hn needed
  have hle : (available files parName needed).2 ≤ total files := by
    rw [hf, counts_eq hn hi]
    exact total_filter_le _ _
  have e := hlt (by omega)
  unfold requestMore
  dsimp only
  rw [if_neg (by omega), e, decide_eq_false (by omega), Bool.false_or]

/-- Files for the example: three volumes and a file. -/
def exFiles : List PFile :=
  [⟨1, lit "a.vol0+1.par2", true, true, true, false⟩, ⟨2, lit "a.vol1+2.par2", true, true, true, false⟩,
   ⟨3, lit "a.vol3+4.par2\" yEnc", false, true, true, false⟩, ⟨4, lit "b.rar", true, false, false, false⟩]

/-- Insertion sort. -/
def exSort (l : List Block) : List Block := l.mergeSort (fun a b => decide (a.count ≤ b.count))

theorem exSort_sorts : Sorts exSort := fun l =>
  ⟨List.mergeSort_perm _ _, by
    have := List.pairwise_mergeSort (le := fun a b : Block => decide (a.count ≤ b.count))
      (fun a b c h1 h2 => by simp only [decide_eq_true_eq] at *; omega)
      (fun a b => by simp only [Bool.or_eq_true, decide_eq_true_eq]; omega) l
    exact this.imp (fun h => by simpa using h)⟩

example : (requestMore (fun l => l) exFiles (lit "d/a.par2") 4).files.map PFile.paused = [true, true, false, false] ∧
    total exFiles = 7 ∧ (exFiles.map PFile.id).Nodup ∧ (ParName.parse true (FileName.baseName (lit "d/a.par2"))).isSome = true := by
  decide +kernel

end Verif.Repair
