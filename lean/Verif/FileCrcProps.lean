import Verif.FileCrc
/-
What the par-check is told about downloaded files (C148).
-/
namespace Verif.FileCrc
open CStr Rpc

/-! ### Specification -/

/-- The same name but for capital letters. -/
def Alike (a b : Bytes) : Prop := a.map WildMask.lower = b.map WildMask.lower

/-- What is known of a file. -/
inductive Known (reprocess : Bool) (load : Nat → Option (List Seg)) (d : Done) : Answer → Prop
  | success : d.status = .success → Known reprocess load d ⟨.success, some d.crc, []⟩
  | failure : d.status = .failure → reprocess = false → Known reprocess load d ⟨.failure, some d.crc, []⟩
  | parts (segs : List Seg) : d.status = .partially → reprocess = false → 0 < d.id → load d.id = some segs → segs ≠ [] → Known reprocess load d ⟨.partially, some d.crc, segs⟩
  | noParts (c : Option Nat) : d.status = .partially → (reprocess = true ∨ d.id = 0 ∨ load d.id = none ∨ load d.id = some []) → Known reprocess load d ⟨.unknown, c, []⟩
  | again (c : Option Nat) : d.status = .failure → reprocess = true → Known reprocess load d ⟨.unknown, c, []⟩
  | nothing (c : Option Nat) : d.status = .none → Known reprocess load d ⟨.unknown, c, []⟩

/-! ### Proofs -/

theorem alike_iff (a b : Bytes) : eqNoCase a b = true ↔ Alike a b := by
  unfold eqNoCase Alike; rw [beq_iff_eq]

/-- What is told about the file which is found. -/
theorem find_known (done : List Done) (reprocess : Bool) (load : Nat → Option (List Seg)) (name : Bytes) (d : Done) (h : done.find? (fun d => eqNoCase d.name name) = some d) :
    Known reprocess load d (find done reprocess load name) := by
  unfold find
  rw [h]
  dsimp only
  by_cases hc : d.status = .partially ∧ 0 < d.id ∧ reprocess = false
  · rw [if_pos hc]
    cases hl : load d.id with
    | none => exact .noParts _ hc.1 (.inr (.inr (.inl hl)))
    | some segs =>
      cases segs with
      | nil => exact .noParts _ hc.1 (.inr (.inr (.inr hl)))
      | cons s l => exact .parts (s :: l) hc.1 hc.2.2 hc.2.1 hl (by simp)
  · rw [if_neg hc]
    cases hs : d.status with
    | none => exact .nothing _ hs
    | success => exact .success hs
    | partially =>
      refine .noParts _ hs ?_
      cases reprocess with
      | true => exact .inl rfl
      | false =>
        right; left
        rcases Nat.eq_zero_or_pos d.id with e | e
        · exact e
        · exact absurd ⟨hs, e, rfl⟩ hc
    | failure =>
      cases reprocess with
      | true => exact .again _ hs rfl
      | false => exact .failure hs rfl

/-- C148: if the names of the completed files differ in more than capital letters, the par-check is told about each of them exactly what is known of this file: its
checksum and its success or failure, or which of its parts were downloaded; and nothing after the download was put back into post-processing but success. -/
theorem told_what_is_known_partial (before after : List Done) (d : Done) (reprocess : Bool) (load : Nat → Option (List Seg)) (name : Bytes) (hn : Alike d.name name)
    (hu : ∀ x ∈ before, ¬ Alike x.name d.name) : Known reprocess load d (find (before ++ d :: after) reprocess load name) := by
  refine find_known _ reprocess load name d ?_
  rw [List.find?_append, List.find?_eq_none.2 ?_, Option.none_or, List.find?_cons, (alike_iff d.name name).2 hn]
  intro x hx q
  exact hu x hx (((alike_iff _ _).1 q).trans (Eq.symm hn))

/-- C148: of a file which was not downloaded nothing is told. -/
theorem not_downloaded (done : List Done) (reprocess : Bool) (load : Nat → Option (List Seg)) (name : Bytes) (h : ∀ d ∈ done, ¬ Alike d.name name) :
    find done reprocess load name = ⟨.unknown, none, []⟩ := by
  unfold find
  rw [List.find?_eq_none.2 (fun d hd q => h d hd ((alike_iff _ _).1 q))]

/-- C148: success is told only with the checksum of a file which was downloaded with success; a file is never declared as failed after a repeated start of post-processing. -/
theorem success_true (done : List Done) (reprocess : Bool) (load : Nat → Option (List Seg)) (name : Bytes) :
    ((find done reprocess load name).verdict = .success → ∃ d ∈ done, Alike d.name name ∧ d.status = .success ∧ (find done reprocess load name).crc = some d.crc) ∧
    (reprocess = true → (find done reprocess load name).verdict ≠ .failure ∧ (find done reprocess load name).verdict ≠ .partially) := by
  cases hf : done.find? (fun d => eqNoCase d.name name) with
  | none =>
    have e : find done reprocess load name = ⟨.unknown, none, []⟩ := by unfold find; rw [hf]
    rw [e]
    exact ⟨(fun h => nomatch h), fun _ => ⟨(fun h => nomatch h), (fun h => nomatch h)⟩⟩
  | some d =>
    have hk := find_known done reprocess load name d hf
    have hm := List.mem_of_find?_eq_some hf
    have ha := (alike_iff d.name name).1 (List.find?_some (p := fun x : Done => eqNoCase x.name name) hf)
    generalize find done reprocess load name = a at hk ⊢
    cases hk with
    | success hs => exact ⟨fun _ => ⟨d, hm, ha, hs, rfl⟩, fun _ => ⟨(fun h => nomatch h), (fun h => nomatch h)⟩⟩
    | failure _ hr => exact ⟨(fun h => nomatch h), fun h => by rw [hr] at h; exact nomatch h⟩
    | parts _ _ hr => exact ⟨(fun h => nomatch h), fun h => by rw [hr] at h; exact nomatch h⟩
    | noParts _ _ _ => exact ⟨(fun h => nomatch h), fun _ => ⟨(fun h => nomatch h), (fun h => nomatch h)⟩⟩
    | again _ _ _ => exact ⟨(fun h => nomatch h), fun _ => ⟨(fun h => nomatch h), (fun h => nomatch h)⟩⟩
    | nothing _ _ => exact ⟨(fun h => nomatch h), fun _ => ⟨(fun h => nomatch h), (fun h => nomatch h)⟩⟩

/-- C148, refuted: of two files whose names differ only in capital letters, which are different files on disk, the par-check is told of both what is known of the first. -/
theorem case_confused (a b : Done) (rest : List Done) (reprocess : Bool) (load : Nat → Option (List Seg)) (hn : Alike a.name b.name) :
    find (a :: b :: rest) reprocess load b.name = find (a :: b :: rest) reprocess load a.name := by
  have e1 : (a :: b :: rest).find? (fun d => eqNoCase d.name b.name) = some a := List.find?_cons_of_pos ((alike_iff a.name b.name).2 hn)
  have e2 : (a :: b :: rest).find? (fun d => eqNoCase d.name a.name) = some a := List.find?_cons_of_pos ((alike_iff a.name a.name).2 rfl)
  unfold find
  rw [e1, e2]

/-! ### Examples -/

def sample : List Done := [⟨1, lit "a.rar", .success, 11⟩, ⟨2, lit "b.rar", .partially, 22⟩, ⟨3, lit "c.rar", .failure, 0⟩, ⟨4, lit "A.rar", .failure, 0⟩]
def saved (i : Nat) : Option (List Seg) := if i = 2 then some [⟨true, 0, 5, 7⟩, ⟨false, 5, 5, 0⟩] else none

example : find sample false saved (lit "b.RAR") = ⟨.partially, some 22, [⟨true, 0, 5, 7⟩, ⟨false, 5, 5, 0⟩]⟩ := by decide +kernel
example : (find sample true saved (lit "b.rar")).verdict = .unknown ∧ (find sample false saved (lit "c.rar")).verdict = .failure := by decide +kernel
example : find sample false saved (lit "A.rar") = ⟨.success, some 11, []⟩ := by decide +kernel
example : ∀ x ∈ [(⟨1, lit "a.rar", .success, 11⟩ : Done)], ¬ Alike x.name (lit "b.rar") := by
  intro x hx; rw [List.mem_singleton.1 hx]; unfold Alike; decide +kernel

end Verif.FileCrc
