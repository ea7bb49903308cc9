import Verif.RarRenameNames
/-
Runs of the renaming of rar-files: several directories, single archives.
-/
namespace Verif.RarRename
open CStr FileName Files Rar

namespace Ex

/-- One volume of an archive of two volumes which contains the file `n`. -/
def vol (n : Bytes) (no : Nat) : Vol where
  volumeNo := no
  newNaming := true
  hasNext := no == 0
  multi := true
  files := [file n (no == 1) (no == 0)]

/-- The reader: the contents 1 and 2 are the volumes of an archive with a.mkv, 3 and 4 those of one with b.mkv, 5 is
an archive with c.mkv in one volume, all other contents are not rar-files. -/
def rd (d : Bytes) : Option (Nat × Vol) :=
  if d = [1] then some (5, vol (lit "a.mkv") 0)
  else if d = [2] then some (5, vol (lit "a.mkv") 1)
  else if d = [3] then some (5, vol (lit "b.mkv") 0)
  else if d = [4] then some (5, vol (lit "b.mkv") 1)
  else if d = [5] then some (5, { volumeNo := 0, newNaming := true, hasNext := false, multi := false, files := [file (lit "x/c.mkv") false false] })
  else none

theorem rd_numbered (d : Bytes) (x : Nat × Vol) (h : rd d = some x) : x.2.newNaming = true ∨ x.2.volumeNo ≤ 14200 := by
  refine Or.inl ?_
  unfold rd at h
  repeat (split at h; · cases h; rfl)
  exact nomatch h

def no : Bytes → Bool := fun _ => false
def yes : Bytes → Bool := fun _ => true

def f (n : String) (c : Nat) : Bytes × Node := (lit n, .file [UInt8.ofNat c])

theorem all_files (fs : Dir) (h : fs.all (fun e => isFile (some e.2)) = true) : ∀ e ∈ fs, ∃ d, e.2 = .file d := by
  intro e he
  have h1 := List.all_eq_true.mp h e he
  obtain ⟨d, hd⟩ := (isFile_iff _).mp h1
  exact ⟨d, Option.some.inj hd⟩

/- An obfuscated archive is renamed; a name which is used gets a number; other files stay. -/
def before : Dir := [f "d/q1" 4, f "d/b.part0002.rar" 9, f "d/q2" 3, f "d/info.nfo" 8]

theorem run_before : execute rd no yes 9 (before, []) [lit "d"] =
    some ([f "d/b-2.part0002.rar" 4, f "d/b-2.part0001.rar" 3, f "d/b.part0002.rar" 9, f "d/info.nfo" 8],
      [⟨lit "d/q1", 5, vol (lit "b.mkv") 1⟩, ⟨lit "d/q2", 5, vol (lit "b.mkv") 0⟩]) := by decide +kernel

example : List.Perm (before.map (·.2)) ([f "d/b-2.part0002.rar" 4, f "d/b-2.part0001.rar" 3, f "d/b.part0002.rar" 9, f "d/info.nfo" 8].map (·.2)) :=
  (rename_nothing_lost_partial rd no yes 9 before [lit "d"] rd_numbered (by decide +kernel)
    (by intro e he; exact all_files before (by decide) e he) (by decide) _ run_before).1

example : get [f "d/b-2.part0002.rar" 4, f "d/b-2.part0001.rar" 3, f "d/b.part0002.rar" 9, f "d/info.nfo" 8] (lit "d/info.nfo") =
    some (.file [8]) :=
  rename_others_untouched rd no yes 9 before [lit "d"] rd_numbered (by decide +kernel) (all_files before (by decide))
    (by decide) _ run_before (lit "d/info.nfo") [8] (by decide +kernel) (Or.inl (by decide +kernel))

theorem sets_before : makeSets [⟨lit "d/q1", 5, vol (lit "b.mkv") 1⟩, ⟨lit "d/q2", 5, vol (lit "b.mkv") 0⟩] =
    [[⟨lit "d/q2", 5, vol (lit "b.mkv") 0⟩, ⟨lit "d/q1", 5, vol (lit "b.mkv") 1⟩]] := by decide +kernel

example : Renamed (lit "d") before [f "d/b-2.part0002.rar" 4, f "d/b-2.part0001.rar" 3, f "d/b.part0002.rar" 9, f "d/info.nfo" 8]
    [⟨lit "d/q2", 5, vol (lit "b.mkv") 0⟩, ⟨lit "d/q1", 5, vol (lit "b.mkv") 1⟩] := by
  refine archives_named_partial rd no yes 9 before (lit "d") rd_numbered (by decide +kernel) (all_files before (by decide)) (by decide)
    (fun _ => rfl) (_, [⟨lit "d/q1", 5, vol (lit "b.mkv") 1⟩, ⟨lit "d/q2", 5, vol (lit "b.mkv") 0⟩]) (by decide +kernel) ?_ _ ?_
  · dsimp only
    rw [sets_before]
    exact List.pairwise_singleton _ _
  · dsimp only
    rw [sets_before]
    exact List.mem_singleton.mpr rfl

/- Good names. -/
def good : List Volume := [⟨lit "d/x.part09.rar", 5, vol (lit "b.mkv") 8⟩, ⟨lit "d/x.Part10.RAR", 5, vol (lit "b.mkv") 9⟩]

example : isProper [⟨lit "d/x.part09.rar", 5, vol (lit "b.mkv") 8⟩, ⟨lit "d/x.part10.RAR", 5, vol (lit "b.mkv") 9⟩] = true := by decide +kernel
example : isProper good = false := by decide +kernel
example : isProper [⟨lit "d/x.part9.rar", 5, vol (lit "b.mkv") 8⟩, ⟨lit "d/x.part10.rar", 5, vol (lit "b.mkv") 9⟩] = false := by decide +kernel

example : ¬ ProperNew good := by
  rw [← proper_new_iff good (by decide) (by decide) (by decide +kernel)]
  · decide +kernel
  · intro v hv p d h
    rw [← partOf_iff] at h
    simp only [good, List.mem_cons, List.not_mem_nil, or_false] at hv
    rcases hv with e | e <;> subst e
    · rw [show partOf (baseName (lit "d/x.part09.rar")) = some (lit "x.part", lit "09") by decide +kernel] at h
      cases h; decide
    · rw [show partOf (baseName (lit "d/x.Part10.RAR")) = some (lit "x.Part", lit "10") by decide +kernel] at h
      cases h; decide

def oldVol (no : Nat) : Vol where
  volumeNo := no
  files := [file (lit "a.mkv") false false]

example : ProperOld [⟨lit "d/x.rar", 3, oldVol 0⟩, ⟨lit "d/x.r00", 3, oldVol 1⟩, ⟨lit "d/x.r01", 3, oldVol 2⟩] :=
  (proper_old_iff _ (by decide) (by decide) (by decide)).mp (by decide +kernel)

example : newExt 8 = lit "part0009.rar" ∧ oldExt 0 = lit "rar" ∧ oldExt 1 = lit "r00" ∧ oldExt 101 = lit "s00" := by decide +kernel
example : mainBase (lit "dir/movie.2020.mkv") = lit "movie.2020" ∧ mainBase (lit "readme.html") = lit "readme.html" := by decide +kernel
example : ∃ base, freshBase before (lit "d") (lit "b") [⟨lit "d/q1", 5, vol (lit "b.mkv") 1⟩] 5 0 = some base :=
  name_search_ends before (lit "d") (lit "b") _ 5 (by decide) (by decide) (by decide +kernel)

end Ex

/- ## Where it fails -/

open Ex

/- **Archives do not stay in their directories**: the names of volumes are remembered when the next directory is
checked, although they were changed. Two archives are in the main directory; the first has the names b.part0002.rar
and b.part0001.rar in the wrong order and is renamed to its contents a, the second gets the names b.part0001.rar and
b.part0002.rar, which are free now. When a subdirectory is checked, the files with the remembered names of the first
archive, which are now those of the second, are moved to the subdirectory with names of the first and in the wrong
order. -/
theorem second_directory_takes_files : ∃ (fs : Dir) (st1 st2 : Dir × List Volume),
    execute rd no yes 9 (fs, []) [lit "d"] = some st1 ∧ execute rd no yes 9 (fs, []) [lit "d", lit "d/sub"] = some st2 ∧
    (∀ e ∈ fs, (lit "d/sub").isPrefixOf e.1 = false) ∧
    get st1.1 (lit "d/b.part0001.rar") = some (.file [3]) ∧ get st1.1 (lit "d/b.part0002.rar") = some (.file [4]) ∧
    get st2.1 (lit "d/sub/a.part0001.rar") = some (.file [4]) ∧ get st2.1 (lit "d/sub/a.part0002.rar") = some (.file [3]) ∧
    get st2.1 (lit "d/b.part0001.rar") = none ∧ get st2.1 (lit "d/b.part0002.rar") = none := by
  refine ⟨[f "d/b.part0002.rar" 1, f "d/b.part0001.rar" 2, f "d/y1" 3, f "d/y2" 4],
    (execute rd no yes 9 ([f "d/b.part0002.rar" 1, f "d/b.part0001.rar" 2, f "d/y1" 3, f "d/y2" 4], []) [lit "d"]).getD ([], []),
    (execute rd no yes 9 ([f "d/b.part0002.rar" 1, f "d/b.part0001.rar" 2, f "d/y1" 3, f "d/y2" 4], []) [lit "d", lit "d/sub"]).getD ([], []), ?_⟩
  decide +kernel

/- **A good name is changed**: an archive of one volume in the format 5 always counts as of the new style, so a name
without a part number is not good, whatever it is. -/
theorem single_archive_renamed (v : Volume) (hn : v.vol.newNaming = true)
    (h : ∀ p d, ¬ NewStyle p d (baseName v.path)) : isProper [v] = false := by
  cases hp : partOf (baseName v.path) with
  | some x => exact absurd (new_partOf hp) (h x.1 x.2)
  | none =>
    rw [isProper, properLoop]
    dsimp only
    rw [if_neg (by simp), hn, if_pos rfl, hp]

example : (execute rd no yes 9 ([f "d/c.rar" 5, f "d/c.sfv" 8], []) [lit "d"]).map (·.1) =
    some [f "d/c.part0001.rar" 5, f "d/c.sfv" 8] := by decide +kernel

/- **Names of the old style repeat** from the volume 14201 on: the character is 0 and ends the name. -/
theorem old_names_repeat : ∃ a b, a ≠ b ∧ a < 14300 ∧ b < 14300 ∧ oldExt a = oldExt b := ⟨14201, 14202, by decide +kernel⟩

end Verif.RarRename
