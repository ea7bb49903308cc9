import Verif.FileExt
import Verif.TokensProps
import Verif.WildMaskProps
import Verif.UnpackFiles
/-
Which files are deleted because of their extension.
-/
namespace Verif.FileExt
open CStr FeedFilter

/-- The name has one of the extensions of the list: it ends with an entry of the list, in any case, or an
entry with `*` or `?` is a mask which the name fits. -/
def Listed (name list : Bytes) : Prop :=
  ∃ ext, Tokens.IsToken (fun c => c = 44 ∨ c = 59) list ext ∧
    (Files.EndsWith name (ext.map WildMask.lower) ∨ ((42 ∈ ext ∨ 63 ∈ ext) ∧ WildMask.Glob ext name))

theorem matchOne_iff (name ext : Bytes) : matchOne name ext = true ↔
    Files.EndsWith name (ext.map WildMask.lower) ∨ ((42 ∈ ext ∨ 63 ∈ ext) ∧ WildMask.Glob ext name) := by
  unfold matchOne
  rw [Bool.or_eq_true, Bool.and_eq_true, Bool.and_eq_true, Bool.or_eq_true, List.contains_iff_mem, List.contains_iff_mem,
    WildMask.matches_iff, decide_eq_true_eq, beq_iff_eq]
  apply or_congr _ Iff.rfl
  constructor
  · rintro ⟨h1, h2⟩
    exact ⟨name.take (name.length - ext.length), name.drop (name.length - ext.length), (List.take_append_drop _ _).symm,
      h2.symm⟩
  · rintro ⟨a, e, rfl, h2⟩
    have hl := congrArg List.length h2
    rw [List.length_map, List.length_map] at hl
    refine ⟨by rw [List.length_append]; omega, ?_⟩
    rw [← h2, List.length_append, ← hl, Nat.add_sub_cancel, List.drop_left]

/-- **MatchFileExt means what the options say.** -/
theorem matchFileExt_iff (name list : Bytes) : matchFileExt name list = true ↔ Listed name list := by
  unfold matchFileExt Listed
  rw [List.any_eq_true]
  have hs : ∀ ext, ext ∈ Tokens.tokens comma list ↔ Tokens.IsToken (fun c => c = 44 ∨ c = 59) list ext := by
    intro ext
    rw [Tokens.mem_tokens]
    have : comma = (fun c : UInt8 => decide (c = 44 ∨ c = 59)) := by
      funext c
      by_cases h1 : c = 44
      · rw [h1]; rfl
      · by_cases h2 : c = 59
        · rw [h2]; rfl
        · simp [comma, h1, h2]
    rw [this]
  constructor
  · rintro ⟨e, h1, h2⟩
    exact ⟨e, (hs e).mp h1, (matchOne_iff _ _).mp h2⟩
  · rintro ⟨e, h1, h2⟩
    exact ⟨e, (hs e).mpr h1, (matchOne_iff _ _).mpr h2⟩

/-- The files of a directory and its subdirectories. -/
inductive Has : Tree → List Bytes → Bytes → Prop
  | here (n data rest) : Has (.file n data rest) [n] data
  | file (m d rest path data) : Has rest path data → Has (.file m d rest) path data
  | inner (n inner rest path data) : Has inner path data → Has (.dir n inner rest) (n :: path) data
  | dir (n inner rest path data) : Has rest path data → Has (.dir n inner rest) path data

/-- The last part of a path. -/
def fileName (path : List Bytes) : Bytes := path.getLast?.getD []

theorem fileName_cons (n : Bytes) (p : List Bytes) (h : p ≠ []) : fileName (n :: p) = fileName p := by
  unfold fileName
  cases p with
  | nil => exact absurd rfl h
  | cons a p => rw [List.getLast?_cons_cons]

theorem has_ne {t : Tree} {p : List Bytes} {data : Bytes} (h : Has t p data) : p ≠ [] := by
  induction h with
  | here n data rest => exact List.cons_ne_nil _ _
  | file m d rest path data _ ih => exact ih
  | inner n inner rest path data _ _ => exact List.cons_ne_nil _ _
  | dir n inner rest path data _ ih => exact ih

theorem has_file (n d : Bytes) (rest : Tree) (p : List Bytes) (data : Bytes) :
    Has (.file n d rest) p data ↔ (p = [n] ∧ data = d) ∨ Has rest p data := by
  constructor
  · intro h
    cases h with
    | here => exact Or.inl ⟨rfl, rfl⟩
    | file _ _ _ _ _ h => exact Or.inr h
  · rintro (⟨rfl, rfl⟩ | h)
    · exact .here _ _ _
    · exact .file _ _ _ _ _ h

theorem has_dir (n : Bytes) (inner rest : Tree) (p : List Bytes) (data : Bytes) :
    Has (.dir n inner rest) p data ↔ (∃ q, p = n :: q ∧ Has inner q data) ∨ Has rest p data := by
  constructor
  · intro h
    cases h with
    | inner _ _ _ q _ h => exact Or.inl ⟨q, rfl, h⟩
    | dir _ _ _ _ _ h => exact Or.inr h
  · rintro (⟨q, rfl, h⟩ | h)
    · exact .inner _ _ _ _ _ h
    · exact .dir _ _ _ _ _ h

theorem cleanup_spec (list : Bytes) (delOk : List Bytes → Bool) : ∀ (t : Tree) (path p : List Bytes) (data : Bytes),
    Has (cleanup list delOk path t).2 p data ↔
      Has t p data ∧ ¬ (Listed (fileName p) list ∧ delOk (path ++ p) = true) := by
  intro t
  induction t with
  | nil => intro path p data; exact ⟨(fun h => nomatch h), (fun h => nomatch h.1)⟩
  | file n d rest ih =>
    intro path p data
    have hone : fileName [n] = n := rfl
    rw [cleanup]
    cases hm : matchFileExt n list with
    | true =>
      rw [if_pos rfl]
      cases ho : delOk (path ++ [n]) with
      | true =>
        rw [if_pos rfl, ih, has_file]
        constructor
        · rintro ⟨h1, h2⟩; exact ⟨Or.inr h1, h2⟩
        · rintro ⟨⟨h1, _⟩ | h1, h2⟩
          · exfalso
            apply h2
            rw [h1, hone]
            exact ⟨(matchFileExt_iff _ _).mp hm, ho⟩
          · exact ⟨h1, h2⟩
      | false =>
        rw [if_neg Bool.false_ne_true]
        dsimp only
        rw [has_file, has_file, ih]
        constructor
        · rintro (h | h)
          · refine ⟨Or.inl h, ?_⟩
            rintro ⟨_, h2⟩
            rw [h.1, ho] at h2
            exact Bool.noConfusion h2
          · exact ⟨Or.inr h.1, h.2⟩
        · rintro ⟨h | h, h2⟩
          · exact Or.inl h
          · exact Or.inr ⟨h, h2⟩
    | false =>
      rw [if_neg Bool.false_ne_true]
      dsimp only
      rw [has_file, has_file, ih]
      constructor
      · rintro (h | h)
        · refine ⟨Or.inl h, ?_⟩
          rintro ⟨h2, _⟩
          rw [h.1, hone, ← matchFileExt_iff, hm] at h2
          exact Bool.noConfusion h2
        · exact ⟨Or.inr h.1, h.2⟩
      · rintro ⟨h | h, h2⟩
        · exact Or.inl h
        · exact Or.inr ⟨h, h2⟩
  | dir n inner rest ih1 ih2 =>
    intro path p data
    rw [cleanup]
    dsimp only
    rw [has_dir, has_dir, ih2]
    have hq : ∀ q, Has inner q data → path ++ n :: q = path ++ [n] ++ q ∧ fileName (n :: q) = fileName q :=
      fun q h => ⟨by simp, fileName_cons n q (has_ne h)⟩
    constructor
    · rintro (⟨q, rfl, h⟩ | h)
      · rw [ih1] at h
        refine ⟨Or.inl ⟨q, rfl, h.1⟩, ?_⟩
        rw [(hq q h.1).1, (hq q h.1).2]
        exact h.2
      · exact ⟨Or.inr h.1, h.2⟩
    · rintro ⟨⟨q, rfl, h⟩ | h, h2⟩
      · rw [(hq q h).1, (hq q h).2] at h2
        exact Or.inl ⟨q, rfl, (ih1 _ _ _).mpr ⟨h, h2⟩⟩
      · exact Or.inr ⟨h, h2⟩

/-- **The cleanup deletes exactly the files with a listed extension**, in all subdirectories; all other files
stay as they are. -/
theorem cleanup_deletes_listed (list : Bytes) (t : Tree) (delOk : List Bytes → Bool) (p : List Bytes) (data : Bytes) :
    Has (cleanup list delOk [] t).2 p data ↔ Has t p data ∧ ¬ (Listed (fileName p) list ∧ delOk p = true) :=
  cleanup_spec list delOk t [] p data

theorem cleanup_ok_spec (list : Bytes) (delOk : List Bytes → Bool) : ∀ (t : Tree) (path : List Bytes),
    (cleanup list delOk path t).1 = true ↔
      ∀ p data, Has t p data → Listed (fileName p) list → delOk (path ++ p) = true := by
  intro t
  induction t with
  | nil => intro path; exact ⟨(fun _ p data h => nomatch h), fun _ => rfl⟩
  | file n d rest ih =>
    intro path
    have hone : fileName [n] = n := rfl
    rw [cleanup]
    cases hm : matchFileExt n list with
    | true =>
      rw [if_pos rfl]
      cases ho : delOk (path ++ [n]) with
      | true =>
        rw [if_pos rfl, ih]
        constructor
        · intro h p data hp hl
          rcases (has_file _ _ _ _ _).mp hp with hp | hp
          · rw [hp.1]; exact ho
          · exact h p data hp hl
        · intro h p data hp hl
          exact h p data ((has_file _ _ _ _ _).mpr (Or.inr hp)) hl
      | false =>
        rw [if_neg Bool.false_ne_true]
        dsimp only
        constructor
        · intro h; exact Bool.noConfusion h
        · intro h
          have := h [n] d (.here _ _ _) (by rw [hone]; exact (matchFileExt_iff _ _).mp hm)
          rw [ho] at this
          exact this
    | false =>
      rw [if_neg Bool.false_ne_true]
      dsimp only
      rw [ih]
      constructor
      · intro h p data hp hl
        rcases (has_file _ _ _ _ _).mp hp with hp | hp
        · rw [hp.1, hone, ← matchFileExt_iff, hm] at hl
          exact Bool.noConfusion hl
        · exact h p data hp hl
      · intro h p data hp hl
        exact h p data ((has_file _ _ _ _ _).mpr (Or.inr hp)) hl
  | dir n inner rest ih1 ih2 =>
    intro path
    rw [cleanup]
    dsimp only
    rw [Bool.and_eq_true, ih1, ih2]
    have hq : ∀ q data, Has inner q data → path ++ n :: q = path ++ [n] ++ q ∧ fileName (n :: q) = fileName q :=
      fun q data h => ⟨by simp, fileName_cons n q (has_ne h)⟩
    constructor
    · rintro ⟨h1, h2⟩ p data hp hl
      rcases (has_dir _ _ _ _ _).mp hp with ⟨q, rfl, hp2⟩ | hp
      · clear hp
        have hp := hp2
        rw [(hq q data hp).2] at hl
        rw [(hq q data hp).1]
        exact h1 q data hp hl
      · exact h2 p data hp hl
    · intro h
      refine ⟨fun q data hp hl => ?_, fun p data hp hl => h p data ((has_dir _ _ _ _ _).mpr (Or.inr hp)) hl⟩
      rw [← (hq q data hp).1]
      exact h (n :: q) data ((has_dir _ _ _ _ _).mpr (Or.inl ⟨q, rfl, hp⟩)) (by rw [(hq q data hp).2]; exact hl)

/-- **The cleanup is reported as a success exactly if every file with a listed extension could be deleted.** -/
theorem cleanup_reports (list : Bytes) (t : Tree) (delOk : List Bytes → Bool) :
    (cleanup list delOk [] t).1 = true ↔ ∀ p data, Has t p data → Listed (fileName p) list → delOk p = true :=
  cleanup_ok_spec list delOk t []

/- Two lists, a subdirectory and a mask. -/
example : cleanup (lit ".par2, .SFV;*sample?.avi") (fun _ => true) []
    (.file (lit "a.vol0+1.PAR2") [1] (.dir (lit "x.sfv") (.file (lit "mysample1.avi") [2] (.file (lit "f.mkv") [3] .nil))
      (.file (lit "a.sfv") [4] .nil))) =
    (true, .dir (lit "x.sfv") (.file (lit "f.mkv") [3] .nil) .nil) := by
  decide +kernel

example : Listed (lit "a.vol0+1.PAR2") (lit ".par2, .SFV;*sample?.avi") :=
  (matchFileExt_iff _ _).mp (by decide +kernel)

example : ¬ Listed (lit "f.mkv") (lit ".par2, .SFV;*sample?.avi") := by
  rw [← matchFileExt_iff]; decide +kernel

end Verif.FileExt
