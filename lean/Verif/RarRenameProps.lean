import Verif.RarRename
import Verif.FilesProps
/-
Renaming of rar-files: no file is lost or overwritten, files which are not volumes are not touched.
-/
namespace Verif.RarRename
open CStr FileName Files Rar

/- ## Names -/

theorem pad_digits (w n : Nat) : ∀ b ∈ pad w n, isDigit b = true := by
  intro b hb
  rcases List.mem_append.mp hb with h | h
  · rw [(List.mem_replicate.mp h).2]; decide
  · exact isDigit_dec n b h

theorem digits_zeros (k : Nat) (s : Bytes) : digits 0 (List.replicate k 48 ++ s) = digits 0 s := by
  induction k with
  | zero => rfl
  | succ k ih =>
    rw [List.replicate_succ, List.cons_append, digits, if_pos (by decide)]
    exact ih

theorem digits_pad (w n : Nat) : digits 0 (pad w n) = n := by
  unfold pad
  rw [digits_zeros]
  have := digits_dec n [] (by simp)
  rwa [List.append_nil] at this

theorem pad_inj {w a b : Nat} (h : pad w a = pad w b) : a = b := by
  have := congrArg (digits 0) h
  rwa [digits_pad, digits_pad] at this

theorem newExt_inj {a b : Nat} (h : newExt a = newExt b) : a = b := by
  have h1 := List.append_cancel_left h
  have h2 := List.append_cancel_right h1
  have := pad_inj h2
  omega

theorem oldChar_val {n : Nat} (h : n ≤ 14200) : (oldChar n).toNat = 114 + (n - 1) / 100 := by
  unfold oldChar
  rw [UInt8.toNat_ofNat']
  omega

theorem oldChar_ne {n : Nat} (h : n ≤ 14200) : oldChar n ≠ 0 := by
  intro h2
  have := oldChar_val h
  rw [h2] at this
  have h3 : (0 : UInt8).toNat = 0 := rfl
  omega

theorem oldExt_eq {n : Nat} (h : n ≤ 14200) (h0 : n ≠ 0) : oldExt n = oldChar n :: pad 2 ((n - 1) % 100) := by
  unfold oldExt
  rw [if_neg h0, if_neg (oldChar_ne h)]

theorem oldExt_inj {a b : Nat} (ha : a ≤ 14200) (hb : b ≤ 14200) (h : oldExt a = oldExt b) : a = b := by
  have key : ∀ n, n ≤ 14200 → n ≠ 0 → oldExt n ≠ lit "rar" := by
    intro n hn h0 he
    rw [oldExt_eq hn h0] at he
    have h1 : pad 2 ((n - 1) % 100) = lit "ar" := (List.cons.inj he).2
    have h2 := pad_digits 2 ((n - 1) % 100) 97 (by rw [h1]; decide)
    exact absurd h2 (by decide)
  by_cases h0 : a = 0
  · by_cases h1 : b = 0
    · omega
    · subst h0
      exact absurd h.symm (key b hb h1)
  · by_cases h1 : b = 0
    · subst h1
      exact absurd h (key a ha h0)
    · rw [oldExt_eq ha h0, oldExt_eq hb h1] at h
      obtain ⟨h2, h3⟩ := List.cons.inj h
      have h4 := pad_inj h3
      have h5 := oldChar_val ha
      have h6 := oldChar_val hb
      rw [h2] at h5
      omega

theorem newExt_ne_oldExt {a b : Nat} (hb : b ≤ 14200) : newExt a ≠ oldExt b := by
  intro h
  by_cases h0 : b = 0
  · subst h0
    have h1 : (112 : UInt8) = 114 := (List.cons.inj h).1
    exact absurd h1 (by decide)
  · rw [oldExt_eq hb h0] at h
    have h1 : (112 : UInt8) = oldChar b := (List.cons.inj h).1
    have h2 := oldChar_val hb
    rw [← h1] at h2
    have h3 : (112 : UInt8).toNat = 112 := rfl
    omega

/-- The number of a volume can be written in the name. -/
def Numbered (v : Vol) : Prop := v.newNaming = true ∨ v.volumeNo ≤ 14200

theorem ext_inj {u v : Vol} (hu : Numbered u) (hv : Numbered v) (h : ext u = ext v) : u.volumeNo = v.volumeNo := by
  unfold ext at h
  cases h1 : u.newNaming with
  | true =>
    cases h2 : v.newNaming with
    | true => rw [h1, h2, if_pos rfl, if_pos rfl] at h; exact newExt_inj h
    | false =>
      rw [h1, h2, if_pos rfl, if_neg Bool.false_ne_true] at h
      exact absurd h (newExt_ne_oldExt (hv.resolve_left (by rw [h2]; exact Bool.false_ne_true)))
  | false =>
    have hu := hu.resolve_left (by rw [h1]; exact Bool.false_ne_true)
    cases h2 : v.newNaming with
    | true =>
      rw [h1, h2, if_pos rfl, if_neg Bool.false_ne_true] at h
      exact absurd h.symm (newExt_ne_oldExt hu)
    | false =>
      have hv := hv.resolve_left (by rw [h2]; exact Bool.false_ne_true)
      rw [h1, h2, if_neg Bool.false_ne_true, if_neg Bool.false_ne_true] at h
      exact oldExt_inj hu hv h

theorem dest_inj {dir base : Bytes} {u v : Volume} (hu : Numbered u.vol) (hv : Numbered v.vol)
    (h : dest dir base u = dest dir base v) : u.vol.volumeNo = v.vol.volumeNo := by
  unfold dest at h
  have h1 := (List.cons.inj (List.append_cancel_left h)).2
  exact ext_inj hu hv (List.cons.inj (List.append_cancel_left h1)).2

/- ## One renaming -/

theorem get_none_iff (fs : Dir) (n : Bytes) : get fs n = none ↔ n ∉ fs.map (·.1) := by
  induction fs with
  | nil => simp [Files.get]
  | cons e fs ih =>
    rw [Files.get, List.map_cons, List.mem_cons]
    by_cases h : e.1 = n
    · rw [if_pos h]
      constructor
      · intro h2; exact nomatch h2
      · intro h2; exact absurd (Or.inl h.symm) h2
    · rw [if_neg h, ih]
      constructor
      · intro h2 h3
        rcases h3 with h3 | h3
        · exact h h3.symm
        · exact h2 h3
      · intro h2 h3; exact h2 (Or.inr h3)

theorem del_none (fs : Dir) (n : Bytes) (h : get fs n = none) : del fs n = fs := by
  rw [get_none_iff] at h
  unfold del
  rw [List.filter_eq_self]
  intro e he
  have : e.1 ≠ n := fun h2 => h (List.mem_map.mpr ⟨e, he, h2⟩)
  simp [this]

theorem del_perm (fs : Dir) (n : Bytes) (x : Node) (hd : (fs.map (·.1)).Nodup) (h : get fs n = some x) :
    List.Perm (fs.map (·.2)) (x :: (del fs n).map (·.2)) := by
  induction fs with
  | nil => simp [Files.get] at h
  | cons e fs ih =>
    rw [List.map_cons, List.nodup_cons] at hd
    rw [Files.get] at h
    by_cases he : e.1 = n
    · rw [if_pos he] at h
      cases h
      have : get fs n = none := (get_none_iff _ _).mpr (by rw [← he]; exact hd.1)
      have h2 : del (e :: fs) n = del fs n := by
        unfold del
        rw [List.filter_cons, if_neg (by simp [he])]
      rw [h2, del_none fs n this]
      exact List.Perm.refl _
    · rw [if_neg he] at h
      have h2 : del (e :: fs) n = e :: del fs n := by
        unfold del
        rw [List.filter_cons, if_pos (by simp [he])]
      rw [h2, List.map_cons, List.map_cons]
      exact ((ih hd.2 h).cons e.2).trans (List.Perm.swap _ _ _)

theorem del_nodup (fs : Dir) (n : Bytes) (h : (fs.map (·.1)).Nodup) : ((del fs n).map (·.1)).Nodup :=
  (List.filter_sublist.map _).nodup h

/-- The names are different, and there are only files. -/
structure Plain (fs : Dir) : Prop where
  names : (fs.map (·.1)).Nodup
  files : ∀ e ∈ fs, ∃ d, e.2 = .file d

theorem get_none_of_not_file {fs : Dir} (h : Plain fs) {n : Bytes} (h2 : isFile (get fs n) = false) : get fs n = none := by
  cases h3 : get fs n with
  | none => rfl
  | some x =>
    obtain ⟨d, hd⟩ := h.files _ (get_mem fs n x h3)
    dsimp only at hd
    rw [h3, hd] at h2
    exact nomatch h2

/- The renaming to a name which is not used. -/
theorem rename_free {ok : Bool} {fs : Dir} {src dst : Bytes} (h : Plain fs) (hd : get fs dst = none) (hne : src ≠ dst) :
    Plain (rename ok fs src dst) ∧ List.Perm (fs.map (·.2)) ((rename ok fs src dst).map (·.2)) ∧
      (∀ p, p ≠ src → p ≠ dst → get (rename ok fs src dst) p = get fs p) ∧
      (get (rename ok fs src dst) dst = none ∨ get (rename ok fs src dst) dst = get fs src) ∧
      (get (rename ok fs src dst) src = none ∨ get (rename ok fs src dst) src = get fs src) ∧
      (ok = true → get (rename ok fs src dst) dst = get fs src) := by
  unfold rename
  cases h1 : get fs src with
  | none =>
    exact ⟨h, List.Perm.refl _, fun _ _ _ => rfl, Or.inl hd, Or.inl h1, fun _ => hd⟩
  | some x =>
    dsimp only
    rw [hd]
    cases ok with
    | false =>
      rw [if_neg (by simp)]
      exact ⟨h, List.Perm.refl _, fun _ _ _ => rfl, Or.inl hd, Or.inr h1, fun h => nomatch h⟩
    | true =>
      rw [if_pos (by simp [renameOk])]
      have hdn : get (del fs src) dst = none := by
        rw [get_del, if_neg hne]; exact hd
      have e : put (del fs src) dst x = (dst, x) :: del fs src := by
        unfold put
        rw [del_none _ _ hdn]
      refine ⟨⟨?_, ?_⟩, ?_, ?_, Or.inr ?_, Or.inl ?_, fun _ => ?_⟩
      · rw [e, List.map_cons, List.nodup_cons]
        exact ⟨(get_none_iff _ _).mp hdn, del_nodup _ _ h.names⟩
      · rw [e]
        intro y hy
        rcases List.mem_cons.mp hy with hy | hy
        · rw [hy]; exact h.files (src, x) (get_mem _ _ _ h1)
        · exact h.files y (List.mem_filter.mp hy).1
      · rw [e, List.map_cons]
        exact del_perm fs src x h.names h1
      · intro p h2 h3
        rw [get_put', if_neg (fun h => h3 h.symm), get_del, if_neg (fun h => h2 h.symm)]
      · rw [get_put', if_pos rfl]
      · rw [get_put', if_neg (fun h => hne h.symm), get_del, if_pos rfl]
      · rw [get_put', if_pos rfl]

/- ## A set -/

def moveOne (ans : Bytes → Bool) (dir base : Bytes) (fs : Dir) (v : Volume) : Dir :=
  if v.path = dest dir base v then fs else rename (ans v.path) fs v.path (dest dir base v)

theorem moveAll_cons (ans : Bytes → Bool) (dir base : Bytes) (fs : Dir) (v : Volume) (s : List Volume) :
    moveAll ans dir base fs (v :: s) = moveAll ans dir base (moveOne ans dir base fs v) s := rfl

/-- The new names of the volumes are different and not used by other files. -/
def Free (fs : Dir) (dir base : Bytes) (s : List Volume) : Prop :=
  (s.map (dest dir base)).Nodup ∧ ∀ v ∈ s, v.path ≠ dest dir base v → get fs (dest dir base v) = none

theorem moveOne_free {ans : Bytes → Bool} {dir base : Bytes} {fs : Dir} {v : Volume} {s : List Volume} (h : Plain fs)
    (hf : Free fs dir base (v :: s)) :
    Plain (moveOne ans dir base fs v) ∧ List.Perm (fs.map (·.2)) ((moveOne ans dir base fs v).map (·.2)) ∧
      Free (moveOne ans dir base fs v) dir base s ∧
      (∀ p, p ≠ v.path → p ≠ dest dir base v → get (moveOne ans dir base fs v) p = get fs p) := by
  obtain ⟨hn, hd⟩ := hf
  rw [List.map_cons, List.nodup_cons] at hn
  unfold moveOne
  by_cases he : v.path = dest dir base v
  · rw [if_pos he]
    exact ⟨h, List.Perm.refl _, ⟨hn.2, fun w hw => hd w (List.mem_cons_of_mem _ hw)⟩, fun _ _ _ => rfl⟩
  · rw [if_neg he]
    obtain ⟨h1, h2, h3, _, h5, _⟩ := rename_free (ok := ans v.path) h (hd v List.mem_cons_self he) he
    refine ⟨h1, h2, ⟨hn.2, ?_⟩, h3⟩
    intro w hw hne
    have h6 := hd w (List.mem_cons_of_mem _ hw) hne
    have h7 : dest dir base w ≠ dest dir base v := fun h => hn.1 (h ▸ List.mem_map_of_mem hw)
    by_cases h8 : dest dir base w = v.path
    · rw [h8]
      rcases h5 with h5 | h5
      · exact h5
      · rw [h5, ← h8]; exact h6
    · rw [h3 _ h8 h7]; exact h6

theorem moveAll_free {ans : Bytes → Bool} {dir base : Bytes} (s : List Volume) : ∀ {fs : Dir}, Plain fs → Free fs dir base s →
    Plain (moveAll ans dir base fs s) ∧ List.Perm (fs.map (·.2)) ((moveAll ans dir base fs s).map (·.2)) ∧
      (∀ p, (∀ v ∈ s, p ≠ v.path) → (∀ v ∈ s, p ≠ dest dir base v) → get (moveAll ans dir base fs s) p = get fs p) := by
  induction s with
  | nil => intro fs h _; exact ⟨h, List.Perm.refl _, fun _ _ _ => rfl⟩
  | cons v s ih =>
    intro fs h hf
    obtain ⟨h1, h2, h3, h4⟩ := moveOne_free (ans := ans) h hf
    obtain ⟨g1, g2, g3⟩ := ih h1 h3
    rw [moveAll_cons]
    refine ⟨g1, h2.trans g2, ?_⟩
    intro p hp hq
    rw [g3 p (fun w hw => hp w (List.mem_cons_of_mem _ hw)) (fun w hw => hq w (List.mem_cons_of_mem _ hw)),
      h4 p (hp v List.mem_cons_self) (hq v List.mem_cons_self)]

/- A volume which is present keeps its name until it is renamed. -/
theorem path_ne {dir base : Bytes} {fs : Dir} {u : Volume} {s : List Volume} (hf : Free fs dir base (u :: s))
    (hn : ((u :: s).map (·.path)).Nodup) {v : Volume} (hv : v ∈ s) (hg : get fs v.path ≠ none) :
    v.path ≠ u.path ∧ v.path ≠ dest dir base u := by
  rw [List.map_cons, List.nodup_cons] at hn
  have h1 : v.path ≠ u.path := fun h => hn.1 (h ▸ List.mem_map_of_mem hv)
  refine ⟨h1, fun h2 => ?_⟩
  by_cases he : u.path = dest dir base u
  · exact h1 (h2.trans he.symm)
  · exact hg (h2 ▸ hf.2 u List.mem_cons_self he)

/- All volumes arrive if the operating system permits it. -/
theorem moveAll_arrive {ans : Bytes → Bool} {dir base : Bytes} (s : List Volume) : ∀ {fs : Dir}, Plain fs →
    Free fs dir base s → (s.map (·.path)).Nodup → (∀ v ∈ s, ans v.path = true) → (∀ v ∈ s, get fs v.path ≠ none) →
    ∀ v ∈ s, get (moveAll ans dir base fs s) (dest dir base v) = get fs v.path := by
  induction s with
  | nil => intro fs _ _ _ _ _ v hv; cases hv
  | cons u s ih =>
    intro fs h hf hn ha hg v hv
    obtain ⟨h1, _, h3, h4⟩ := moveOne_free (ans := ans) h hf
    have hdn := hf.1
    rw [List.map_cons, List.nodup_cons] at hdn
    have hsame : ∀ w ∈ s, get (moveOne ans dir base fs u) w.path = get fs w.path := by
      intro w hw
      obtain ⟨a, b⟩ := path_ne hf hn hw (hg w (List.mem_cons_of_mem _ hw))
      exact h4 _ a b
    rw [moveAll_cons]
    rcases List.mem_cons.mp hv with e | hv'
    · subst e
      have g := moveAll_free (ans := ans) s h1 h3
      rw [g.2.2]
      · unfold moveOne
        by_cases he : v.path = dest dir base v
        · rw [if_pos he, ← he]
        · rw [if_neg he]
          exact (rename_free (ok := ans v.path) h (hf.2 v List.mem_cons_self he) he).2.2.2.2.2 (ha v List.mem_cons_self)
      · intro w hw he
        exact (path_ne hf hn hw (hg w (List.mem_cons_of_mem _ hw))).2 he.symm
      · intro w hw he
        exact hdn.1 (he ▸ List.mem_map_of_mem hw)
    · rw [List.map_cons, List.nodup_cons] at hn
      rw [ih h1 h3 hn.2 (fun w hw => ha w (List.mem_cons_of_mem _ hw))
        (fun w hw => by rw [hsame w hw]; exact hg w (List.mem_cons_of_mem _ hw)) v hv', hsame v hv']

end Verif.RarRename
