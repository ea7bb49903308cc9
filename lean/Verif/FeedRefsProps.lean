import Verif.FeedRefs
import Verif.FeedTermProps
import Verif.RpcParamProps
import Verif.NzbPassProps
import Verif.CmdIdsProps
/-
References in the options of feed rules (C143).
-/
namespace Verif.FeedRefs
open CStr
open FeedTerm (cutAt cutAt_first)
open NzbPass (cutText cutText_first)
open OptStore (Same same_iff)
open CmdArgs (dec_ne_nil)

/-! ### Specification -/

/-- A pattern: texts, the season, the episode and the texts of the wildcards, which are counted from 1. -/
inductive Part
  | text (t : Bytes)
  | season (name : Bytes)
  | episode (name : Bytes)
  | wildcard (i : Nat)

/-- How a pattern is written. -/
def Part.written : Part → Bytes
  | .text t => t
  | .season name => lit "${" ++ (name ++ lit "}")
  | .episode name => lit "${" ++ (name ++ lit "}")
  | .wildcard i => lit "${" ++ (dec (i + 1) ++ lit "}")

/-- What it stands for. -/
def Part.means (v : Values) : Part → Bytes
  | .text t => t
  | .season _ => v.season
  | .episode _ => v.episode
  | .wildcard i => v.refs.getD i []

/-- Texts without `$`, names in lower or upper case, wildcards which exist. -/
def Part.Ok (v : Values) : Part → Prop
  | .text t => (36 : UInt8) ∉ t
  | .season name => Same name (lit "season")
  | .episode name => Same name (lit "episode")
  | .wildcard i => i < v.refs.length ∧ i + 1 ≤ 2147483647

def Part.isRef : Part → Bool
  | .text _ => false
  | _ => true

def written (ps : List Part) : Bytes := ps.flatMap Part.written
def means (v : Values) (ps : List Part) : Bytes := ps.flatMap (Part.means v)

/-- No text which is put in contains a `$`. -/
def Plain (v : Values) : Prop := (36 : UInt8) ∉ v.season ∧ (36 : UInt8) ∉ v.episode ∧ ∀ r ∈ v.refs, (36 : UInt8) ∉ r

/-! ### Proofs -/

theorem open_first (a s : Bytes) (h : (36 : UInt8) ∉ a) : cutText (lit "${") (a ++ (lit "${" ++ s)) = some (a, s) := by
  refine cutText_first _ a s ?_ (by decide +kernel)
  intro k hk
  rw [List.drop_append_of_le_length (by omega)]
  cases hd : a.drop k with
  | nil => rw [List.drop_eq_nil_iff] at hd; omega
  | cons x l =>
    have hx : x ≠ 36 := fun q => h (by
      have : x ∈ a.drop k := by rw [hd]; exact List.mem_cons_self
      rw [← q]; exact List.mem_of_mem_drop this)
    rw [show lit "${" = [36, 123] by decide +kernel]
    unfold startsWith
    rw [List.cons_append, List.isPrefixOf_cons_cons, show (36 == x) = false by rw [beq_eq_false_iff_ne]; exact fun q => hx q.symm]
    rfl

theorem open_none : ∀ a : Bytes, (36 : UInt8) ∉ a → cutText (lit "${") a = none
  | [], _ => by unfold cutText; rw [if_neg (by decide +kernel)]
  | x :: a, h => by
    have hx : ¬ 36 = x := fun q => h (q ▸ List.mem_cons_self)
    unfold cutText
    rw [if_neg, open_none a (fun g => h (List.mem_cons_of_mem _ g))]
    · rfl
    · rw [show lit "${" = [36, 123] by decide +kernel]
      unfold startsWith
      rw [List.isPrefixOf_cons_cons, show (36 == x) = false by rw [beq_eq_false_iff_ne]; exact hx]
      exact Bool.false_ne_true

theorem same_length {a b : Bytes} (h : Same a b) : a.length = b.length := by
  have := congrArg List.length h
  simpa using this

/-- One attempt, for a reference with a name. -/
theorem one_reference (v : Values) (n : Nat) (a name rest x : Bytes) (ha : (36 : UInt8) ∉ a) (h0 : name ≠ []) (h1 : (125 : UInt8) ∉ name)
    (hl : name.length ≤ 99) (hv : valueOf v name = some x) :
    expandLoop v (n + 1) (a ++ ((lit "${" ++ (name ++ lit "}")) ++ rest)) = expandLoop v n (a ++ (x ++ rest)) := by
  have e : (lit "${" ++ (name ++ lit "}")) ++ rest = lit "${" ++ (name ++ 125 :: rest) := by
    rw [show lit "}" = [125] by decide +kernel]; simp
  rw [e, expandLoop, open_first a _ ha]
  dsimp only
  rw [cutAt_first rest h1]
  dsimp only
  rw [nameOf, if_neg h0, List.take_of_length_le hl, hv]

theorem dec_length_le (n : Nat) (h : n ≤ 2147483647) : (dec n).length ≤ 10 :=
  RarRename.dec_length (Nat.lt_of_le_of_lt h (by decide)) (by decide)

theorem dec_chars (n : Nat) : ∀ b ∈ dec n, isDigit b = true := isDigit_dec n

theorem lower_dig (x : UInt8) (h : isDigit x = true) : WildMask.lower x = x := by
  unfold isDigit at h
  simp only [Bool.and_eq_true, decide_eq_true_eq] at h
  unfold WildMask.lower
  rw [if_neg (by omega)]

/-- A number is none of the two names. -/
theorem dec_not_name (n : Nat) (w : Bytes) (hw : ∃ b ∈ w, isDigit (WildMask.lower b) = false) : Rpc.eqNoCase (dec n) w = false := by
  cases hq : Rpc.eqNoCase (dec n) w with
  | false => rfl
  | true =>
    rw [same_iff] at hq
    obtain ⟨b, hb, hd⟩ := hw
    have : WildMask.lower b ∈ (dec n).map WildMask.lower := by
      rw [show (dec n).map WildMask.lower = w.map WildMask.lower from hq]; exact List.mem_map_of_mem hb
    obtain ⟨x, hx, ex⟩ := List.mem_map.1 this
    have h1 := dec_chars _ x hx
    rw [← ex, lower_dig x h1, h1] at hd
    exact nomatch hd

theorem dec_value (i : Nat) (h2 : i + 1 ≤ 2147483647) : OptStore.intOf (dec (i + 1)) = (i : Int) + 1 := by
  have := RpcParam.intOf_decInt ((i : Int) + 1) (by omega) (by omega) [] (by simp)
  rw [List.append_nil] at this
  rw [show decInt ((i : Int) + 1) = dec (i + 1) by
    unfold decInt; rw [if_neg (by omega)]; congr 1] at this
  exact this

/-- What a number stands for. -/
theorem value_number (v : Values) (i : Nat) (h2 : i + 1 ≤ 2147483647) : valueOf v (dec (i + 1)) = v.refs[i]? := by
  unfold valueOf
  rw [dec_not_name _ (lit "season") ⟨115, by decide +kernel, by decide +kernel⟩, dec_not_name _ (lit "episode") ⟨101, by decide +kernel, by decide +kernel⟩,
    if_neg Bool.false_ne_true, if_neg Bool.false_ne_true, dec_value i h2, if_pos (by omega), show ((i : Int) + 1 - 1).toNat = i by omega]

theorem value_wildcard (v : Values) (i : Nat) (h : i < v.refs.length) (h2 : i + 1 ≤ 2147483647) : valueOf v (dec (i + 1)) = some (v.refs.getD i []) := by
  rw [value_number v i h2, List.getD_eq_getElem?_getD, List.getElem?_eq_getElem h]
  rfl

theorem value_season (v : Values) (name : Bytes) (h : Same name (lit "season")) : valueOf v name = some v.season := by
  unfold valueOf; rw [if_pos ((same_iff _ _).2 h)]

theorem value_episode (v : Values) (name : Bytes) (h : Same name (lit "episode")) : valueOf v name = some v.episode := by
  unfold valueOf
  rw [if_neg, if_pos ((same_iff _ _).2 h)]
  intro g
  rw [same_iff] at g
  have := h.symm.trans g
  exact absurd this (by decide +kernel)

theorem same_no_brace {a b : Bytes} (h : Same a b) (hb : ∀ x ∈ b, WildMask.lower x ≠ 125) : (125 : UInt8) ∉ a := by
  intro g
  have : WildMask.lower 125 ∈ b.map WildMask.lower := by
    rw [← show a.map WildMask.lower = b.map WildMask.lower from h]; exact List.mem_map_of_mem g
  obtain ⟨x, hx, e⟩ := List.mem_map.1 this
  exact hb x hx (e.trans (by decide +kernel))

/-- The loop over a pattern which is followed by anything. -/
theorem loop_parts (v : Values) (hp : Plain v) (rest : Bytes) : ∀ (ps : List Part) (n : Nat) (a : Bytes), (36 : UInt8) ∉ a → (∀ p ∈ ps, p.Ok v) →
    (ps.filter Part.isRef).length ≤ n →
    (36 : UInt8) ∉ a ++ means v ps ∧
    expandLoop v n (a ++ (written ps ++ rest)) = expandLoop v (n - (ps.filter Part.isRef).length) (a ++ (means v ps ++ rest))
  | [], n, a, ha, _, _ => by
    refine ⟨by simpa [means] using ha, ?_⟩
    rfl
  | p :: ps, n, a, ha, hok, hn => by
    have hpo := hok p List.mem_cons_self
    have hok' : ∀ q ∈ ps, q.Ok v := fun q hq => hok q (List.mem_cons_of_mem _ hq)
    have ew : written (p :: ps) = p.written ++ written ps := by unfold written; rw [List.flatMap_cons]
    have em : means v (p :: ps) = p.means v ++ means v ps := by unfold means; rw [List.flatMap_cons]
    have hm : (36 : UInt8) ∉ p.means v := by
      cases p with
      | text t => exact hpo
      | season _ => exact hp.1
      | episode _ => exact hp.2.1
      | wildcard i =>
        show (36 : UInt8) ∉ v.refs.getD i []
        rw [List.getD_eq_getElem?_getD, List.getElem?_eq_getElem hpo.1]
        exact hp.2.2 _ (List.getElem_mem _)
    have ha' : (36 : UInt8) ∉ a ++ p.means v := by
      intro g
      rcases List.mem_append.1 g with g | g
      · exact ha g
      · exact hm g
    have key : ∀ name : Bytes, p.isRef = true → p.written = lit "${" ++ (name ++ lit "}") → name ≠ [] → (125 : UInt8) ∉ name → name.length ≤ 99 →
        valueOf v name = some (p.means v) →
        (36 : UInt8) ∉ a ++ means v (p :: ps) ∧
        expandLoop v n (a ++ (written (p :: ps) ++ rest)) = expandLoop v (n - ((p :: ps).filter Part.isRef).length) (a ++ (means v (p :: ps) ++ rest)) := by
      intro name hr hw h0 h1 hl hv
      have hf : ((p :: ps).filter Part.isRef).length = (ps.filter Part.isRef).length + 1 := by
        rw [List.filter_cons_of_pos hr]; rfl
      rw [hf] at hn
      obtain ⟨m, rfl⟩ : ∃ m, n = m + 1 := ⟨n - 1, by omega⟩
      obtain ⟨i1, i2⟩ := loop_parts v hp rest ps m (a ++ p.means v) ha' hok' (by omega)
      refine ⟨by rw [em, ← List.append_assoc]; exact i1, ?_⟩
      rw [ew, hw, List.append_assoc (lit "${" ++ (name ++ lit "}")), one_reference v m a name _ _ ha h0 h1 hl hv]
      rw [← List.append_assoc a, i2, em, hf, show m + 1 - ((ps.filter Part.isRef).length + 1) = m - (ps.filter Part.isRef).length by omega]
      simp
    cases p with
    | text t =>
      obtain ⟨i1, i2⟩ := loop_parts v hp rest ps n (a ++ t) ha' hok' hn
      refine ⟨by rw [em, ← List.append_assoc]; exact i1, ?_⟩
      have e1 : a ++ (written (.text t :: ps) ++ rest) = (a ++ t) ++ (written ps ++ rest) := by rw [ew]; simp [Part.written]
      have e2 : a ++ (means v (.text t :: ps) ++ rest) = (a ++ t) ++ (means v ps ++ rest) := by rw [em]; simp [Part.means]
      rw [e1, e2]
      exact i2
    | season name =>
      have hln := same_length hpo
      rw [show (lit "season").length = 6 by decide +kernel] at hln
      exact key name rfl rfl (by intro q; rw [q] at hln; exact nomatch hln) (same_no_brace hpo (by decide +kernel)) (by omega) (value_season v name hpo)
    | episode name =>
      have hln := same_length hpo
      rw [show (lit "episode").length = 7 by decide +kernel] at hln
      exact key name rfl rfl (by intro q; rw [q] at hln; exact nomatch hln) (same_no_brace hpo (by decide +kernel)) (by omega) (value_episode v name hpo)
    | wildcard i =>
      have hd := dec_chars (i + 1)
      refine key (dec (i + 1)) rfl rfl ?_ ?_ ?_ (value_wildcard v i hpo.1 hpo.2)
      · exact dec_ne_nil (i + 1)
      · intro g; have := hd 125 g; exact absurd this (by decide +kernel)
      · exact Nat.le_trans (dec_length_le (i + 1) hpo.2) (by decide)

/-- C143: in the options of a rule every reference to the season, the episode or a wildcard is replaced by what it stands for, and nothing else is changed:
for up to one hundred references, if no text which is put in contains a `$`. -/
theorem references_expanded_partial (v : Values) (hp : Plain v) (ps : List Part) (hok : ∀ p ∈ ps, p.Ok v) (hn : (ps.filter Part.isRef).length ≤ 100) :
    expand v (written ps) = means v ps := by
  obtain ⟨i1, i2⟩ := loop_parts v hp [] ps 100 [] (by simp) hok hn
  unfold expand
  simp only [List.nil_append, List.append_nil] at i1 i2
  rw [i2]
  cases 100 - (ps.filter Part.isRef).length with
  | zero => rfl
  | succ k => rw [expandLoop, open_none _ i1]

/-- C143, refuted: all that follows the hundredth reference is left as it is. -/
theorem after_hundred (v : Values) (hp : Plain v) (ps : List Part) (rest : Bytes) (hok : ∀ p ∈ ps, p.Ok v) (hn : (ps.filter Part.isRef).length = 100) :
    expand v (written ps ++ rest) = means v ps ++ rest := by
  obtain ⟨_, i2⟩ := loop_parts v hp rest ps 100 [] (by simp) hok (by omega)
  unfold expand
  simp only [List.nil_append] at i2
  rw [i2, hn]
  rfl

/-- C143, refuted: a reference to a wildcard which doesn't exist stays in the text, and with it all references behind it, even if they exist. -/
theorem missing_wildcard (v : Values) (hp : Plain v) (ps : List Part) (rest : Bytes) (i : Nat) (hok : ∀ p ∈ ps, p.Ok v)
    (hn : (ps.filter Part.isRef).length < 100) (hi : v.refs.length ≤ i) (h2 : i + 1 ≤ 2147483647) :
    expand v (written ps ++ (Part.written (.wildcard i) ++ rest)) = means v ps ++ (Part.written (.wildcard i) ++ rest) := by
  obtain ⟨i1, i2⟩ := loop_parts v hp (Part.written (.wildcard i) ++ rest) ps 100 [] (by simp) hok (by omega)
  unfold expand
  simp only [List.nil_append] at i1 i2
  rw [i2]
  obtain ⟨k, hk⟩ : ∃ k, 100 - (ps.filter Part.isRef).length = k + 1 := ⟨99 - (ps.filter Part.isRef).length, by omega⟩
  rw [hk]
  have e : Part.written (.wildcard i) ++ rest = lit "${" ++ (dec (i + 1) ++ 125 :: rest) := by
    show lit "${" ++ (dec (i + 1) ++ lit "}") ++ rest = _
    rw [show lit "}" = [125] by decide +kernel]; simp
  have hb : (125 : UInt8) ∉ dec (i + 1) := by
    intro g; exact absurd (dec_chars _ 125 g) (by decide +kernel)
  have hnone : valueOf v (dec (i + 1)) = none := by rw [value_number v i h2]; exact List.getElem?_eq_none hi
  rw [e, expandLoop, open_first _ _ i1]
  dsimp only
  rw [cutAt_first rest hb]
  dsimp only
  rw [nameOf, if_neg (dec_ne_nil (i + 1)), List.take_of_length_le (Nat.le_trans (dec_length_le (i + 1) h2) (by decide)), hnone]

/-- C143, refuted: a text which is put in is expanded itself, if it looks like a reference. The text comes from the title of an item of the feed: here a title
`${2}` yields the text of the second wildcard; with `${1}` nothing but the hundred attempts ends the loop. -/
theorem value_expanded :
    expand ⟨[], [], [lit "${2}", lit "x"]⟩ (written [.wildcard 0]) = lit "x" ∧ means ⟨[], [], [lit "${2}", lit "x"]⟩ [.wildcard 0] = lit "${2}" ∧
    expand ⟨[], [], [lit "a${1}"]⟩ (lit "${1}") = List.replicate 100 97 ++ lit "${1}" := by
  decide +kernel

/-! ### Examples -/

example : expand ⟨lit "2", lit "5", [lit "My Show", lit "720p"]⟩ (lit "series=${1}-${Season}x${episode}") = lit "series=My Show-2x5" := by decide +kernel
example : written [.text (lit "series="), .wildcard 0, .text (lit "-"), .season (lit "Season")] = lit "series=${1}-${Season}" ∧
    (∀ p ∈ [Part.text (lit "series="), .wildcard 0, .text (lit "-"), .season (lit "Season")], p.Ok ⟨lit "2", [], [lit "My Show"]⟩) ∧
    Plain ⟨lit "2", [], [lit "My Show"]⟩ := by
  refine ⟨by decide +kernel, ?_, by decide +kernel, by decide +kernel, by decide +kernel⟩
  intro p hp
  simp only [List.mem_cons, List.not_mem_nil, or_false] at hp
  rcases hp with q | q | q | q <;> subst q <;> simp only [Part.Ok] <;> decide +kernel
example : expand ⟨[], [], [lit "a"]⟩ (lit "${2}-${1}") = lit "${2}-${1}" := by decide +kernel

end Verif.FeedRefs
