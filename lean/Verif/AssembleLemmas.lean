import Verif.Assemble
import Verif.CrcProps
/-! Lemmas for C32. -/
namespace Verif.Assemble
open CStr

theorem writeAt_get (f : Bytes) (pos : Nat) (d : Bytes) (p : Nat) (hd : d ≠ []) :
    (writeAt f pos d)[p]? = if p < pos then (if p < f.length then f[p]? else some 0)
      else if p < pos + d.length then d[p - pos]? else f[p]? := by
  unfold writeAt
  rw [if_neg hd]
  have hl : (f.take pos ++ List.replicate (pos - f.length) (0 : UInt8)).length = pos := by
    simp; omega
  by_cases h1 : p < pos
  · rw [if_pos h1, List.append_assoc, List.append_assoc, ← List.append_assoc (f.take pos),
      List.getElem?_append_left (by rw [hl]; exact h1)]
    by_cases h2 : p < f.length
    · rw [if_pos h2, List.getElem?_append_left (by simp; omega), List.getElem?_take_of_lt h1]
    · rw [if_neg h2, List.getElem?_append_right (by simp; omega), List.getElem?_replicate]
      rw [if_pos (by simp; omega)]
  · rw [if_neg h1]
    by_cases h2 : p < pos + d.length
    · rw [if_pos h2, List.getElem?_append_left (by rw [List.length_append, hl]; exact h2),
        List.getElem?_append_right (by rw [hl]; omega), hl]
    · rw [if_neg h2, List.getElem?_append_right (by rw [List.length_append, hl]; omega), List.length_append, hl,
        List.getElem?_drop]
      congr 1; omega

theorem writeAt_nil (f : Bytes) (pos : Nat) : writeAt f pos [] = f := rfl

theorem writeAt_end (f d : Bytes) : writeAt f f.length d = f ++ d := by
  unfold writeAt
  by_cases hd : d = []
  · simp [hd]
  · rw [if_neg hd]; simp

theorem writeAt_length (f : Bytes) (pos : Nat) (d : Bytes) (hd : d ≠ []) :
    (writeAt f pos d).length = max f.length (pos + d.length) := by
  unfold writeAt
  rw [if_neg hd]; simp; omega

theorem toInt32_small (n : Nat) (h : n < 2 ^ 31) : toInt32 n = n := by
  unfold toInt32
  apply Int.bmod_eq_of_le <;> omega

theorem fillGap_small : ∀ (fuel : Nat) (f : Bytes) (off : Nat), f.length ≤ off → off - f.length < 2 ^ 31 → off - f.length < fuel →
    fillGap fuel f f.length off = some (f ++ List.replicate (off - f.length) 0, off)
  | 0, _, _, _, _, h => by omega
  | fuel + 1, f, off, hle, hg, hf => by
    unfold fillGap
    by_cases h : f.length < off
    · rw [if_pos h, toInt32_small _ hg, if_neg (by omega), if_neg (by omega), writeAt_end]
      have hn : (((off - f.length : Nat) : Int)).toNat = off - f.length := by omega
      rw [hn]
      generalize hm : min (off - f.length) 65536 = m
      have hm1 : 0 < m ∧ m ≤ off - f.length := by omega
      have hl : (f ++ List.replicate m (0 : UInt8)).length = f.length + m := by simp
      have := fillGap_small fuel (f ++ List.replicate m 0) off (by omega) (by omega) (by omega)
      rw [hl] at this
      rw [this, List.append_assoc, List.replicate_append_replicate]
      congr 4; omega
    · rw [if_neg h]
      have : off = f.length := by omega
      simp [this]

/-- The bytes of a finished article. -/
def bytesOf (a : Art) : Option Bytes := match a.content with
  | some d => some d
  | none => a.result

/-- The finished articles with their bytes. -/
def Parts : List Art → List (Nat × Bytes) → Prop
  | [], ps => ps = []
  | a :: as, ps => if a.finished then ∃ d r, bytesOf a = some d ∧ ps = (a.off, d) :: r ∧ Parts as r else Parts as ps

/-- Each part starts at or after the end of the one before, less than 2 GB after it. -/
def Ordered : Nat → List (Nat × Bytes) → Prop
  | _, [] => True
  | pos, p :: ps => pos ≤ p.1 ∧ p.1 - pos < 2 ^ 31 ∧ Ordered (p.1 + p.2.length) ps

/-- The parts with the holes before them filled with zeros. -/
def layout : Nat → List (Nat × Bytes) → Bytes
  | _, [] => []
  | pos, p :: ps => List.replicate (p.1 - pos) 0 ++ (p.2 ++ layout (p.1 + p.2.length) ps)

theorem place_at (f : Bytes) (a : Art) (d : Bytes) (h : bytesOf a = some d) (hf : f.length = a.off) :
    place f a.off a = (f ++ d, a.off + d.length) := by
  unfold place
  unfold bytesOf at h
  cases hc : a.content with
  | some c =>
    rw [hc] at h
    simp only [Option.some.injEq] at h
    subst h
    simp only
    rw [← hf, writeAt_end]
  | none =>
    rw [hc] at h
    simp only at h ⊢
    rw [h]
    simp only
    rw [← hf, writeAt_end]

theorem join_layout : ∀ (as : List Art) (ps : List (Nat × Bytes)) (f : Bytes), Parts as ps → Ordered f.length ps →
    join f f.length as = some (f ++ layout f.length ps)
  | [], ps, f, hp, _ => by
    have : ps = [] := hp
    subst this
    simp [join, layout]
  | a :: as, ps, f, hp, ho => by
    unfold Parts at hp
    unfold join
    by_cases hf : a.finished = true
    · rw [if_pos hf] at hp ⊢
      obtain ⟨d, r, hd, rfl, hr⟩ := hp
      obtain ⟨h1, h2, h3⟩ := ho
      simp only at h1 h2 h3
      unfold joinArt
      rw [fillGap_small _ _ _ h1 h2 (by omega)]
      simp only [Option.map_some, Option.bind_some]
      have hl : (f ++ List.replicate (a.off - f.length) (0 : UInt8)).length = a.off := by simp; omega
      rw [place_at _ a d hd hl]
      simp only
      have hl2 : (f ++ List.replicate (a.off - f.length) (0 : UInt8) ++ d).length = a.off + d.length := by
        rw [List.length_append, hl]
      have := join_layout as r (f ++ List.replicate (a.off - f.length) 0 ++ d) hr (by rw [hl2]; exact h3)
      rw [hl2] at this
      rw [this]
      simp [layout]
    · rw [if_neg hf] at hp ⊢
      exact join_layout as ps f hp ho

theorem layout_length : ∀ (pos : Nat) (ps : List (Nat × Bytes)), Ordered pos ps →
    (∀ p ∈ ps, pos ≤ p.1 ∧ p.1 + p.2.length ≤ pos + (layout pos ps).length) ∧
    (ps ≠ [] → ∃ p ∈ ps, pos + (layout pos ps).length = p.1 + p.2.length)
  | _, [], _ => ⟨by simp, by simp⟩
  | pos, p :: ps, h => by
    obtain ⟨h1, h2, h3⟩ := h
    obtain ⟨i1, i2⟩ := layout_length _ ps h3
    have hl : (layout pos (p :: ps)).length = (p.1 - pos) + p.2.length + (layout (p.1 + p.2.length) ps).length := by
      simp [layout]; omega
    refine ⟨?_, ?_⟩
    · intro q hq
      rcases List.mem_cons.mp hq with rfl | hq
      · rw [hl]; omega
      · have := i1 q hq; rw [hl]; omega
    · intro _
      by_cases hps : ps = []
      · refine ⟨p, List.mem_cons_self .., ?_⟩
        rw [hl, hps]; simp [layout]; omega
      · obtain ⟨q, hq, he⟩ := i2 hps
        refine ⟨q, List.mem_cons_of_mem _ hq, ?_⟩
        rw [hl]; omega

theorem layout_get : ∀ (pos : Nat) (ps : List (Nat × Bytes)), Ordered pos ps →
    (∀ p ∈ ps, ∀ k, k < p.2.length → (layout pos ps)[p.1 - pos + k]? = p.2[k]?) ∧
    (∀ q, pos ≤ q → q < pos + (layout pos ps).length → (∀ p ∈ ps, ¬ (p.1 ≤ q ∧ q < p.1 + p.2.length)) →
      (layout pos ps)[q - pos]? = some 0)
  | _, [], _ => ⟨by simp, by intro q h1 h2; simp [layout] at h2; omega⟩
  | pos, p :: ps, h => by
    obtain ⟨h1, h2, h3⟩ := h
    obtain ⟨i1, i2⟩ := layout_get _ ps h3
    have hlen := layout_length _ ps h3
    refine ⟨?_, ?_⟩
    · intro q hq k hk
      unfold layout
      rcases List.mem_cons.mp hq with rfl | hq
      · rw [List.getElem?_append_right (by simp), List.length_replicate, Nat.add_sub_cancel_left,
          List.getElem?_append_left hk]
      · have := hlen.1 q hq
        rw [List.getElem?_append_right (by simp; omega), List.length_replicate,
          List.getElem?_append_right (by omega)]
        rw [show q.1 - pos + k - (p.1 - pos) - p.2.length = q.1 - (p.1 + p.2.length) + k by omega]
        exact i1 q hq k hk
    · intro q hq1 hq2 hn
      have hl : (layout pos (p :: ps)).length = (p.1 - pos) + p.2.length + (layout (p.1 + p.2.length) ps).length := by
        simp [layout]; omega
      rw [hl] at hq2
      unfold layout
      by_cases hlt : q < p.1
      · rw [List.getElem?_append_left (by simp; omega), List.getElem?_replicate, if_pos (by omega)]
      · have hnp := hn p (List.mem_cons_self ..)
        rw [List.getElem?_append_right (by simp; omega), List.length_replicate,
          List.getElem?_append_right (by omega)]
        rw [show q - pos - (p.1 - pos) - p.2.length = q - (p.1 + p.2.length) by omega]
        exact i2 q (by omega) (by omega) (fun r hr => hn r (List.mem_cons_of_mem _ hr))

/-! ### Writing segments at their offsets -/

/-- The file contains `d` at `off`. -/
def HasAt (f : Bytes) (off : Nat) (d : Bytes) : Prop := ∀ k, k < d.length → f[off + k]? = d[k]?

/-- Two ranges have no position in common. -/
def Apart (o1 : Nat) (d1 : Bytes) (o2 : Nat) (d2 : Bytes) : Prop :=
  ∀ q, ¬ (o1 ≤ q ∧ q < o1 + d1.length ∧ o2 ≤ q ∧ q < o2 + d2.length)

theorem Apart.symm {o1 o2 : Nat} {d1 d2 : Bytes} (h : Apart o1 d1 o2 d2) : Apart o2 d2 o1 d1 :=
  fun q hq => h q ⟨hq.2.2.1, hq.2.2.2, hq.1, hq.2.1⟩

theorem hasAt_self (f : Bytes) (off : Nat) (d : Bytes) : HasAt (writeAt f off d) off d := by
  intro k hk
  have hd : d ≠ [] := by intro h; rw [h] at hk; simp at hk
  rw [writeAt_get f off d _ hd, if_neg (by omega), if_pos (by omega), Nat.add_sub_cancel_left]

theorem hasAt_other (f : Bytes) (o1 o2 : Nat) (d1 d2 : Bytes) (h : HasAt f o1 d1) (ha : Apart o1 d1 o2 d2) :
    HasAt (writeAt f o2 d2) o1 d1 := by
  intro k hk
  by_cases hd : d2 = []
  · rw [hd, writeAt_nil]; exact h k hk
  · have hf := h k hk
    have hlt : o1 + k < f.length := by
      have h3 : (f[o1 + k]?).isSome := by rw [hf]; simp [hk]
      simpa using h3
    rw [writeAt_get f o2 d2 _ hd]
    by_cases h1 : o1 + k < o2
    · rw [if_pos h1, if_pos hlt]; exact hf
    · rw [if_neg h1]
      by_cases h2 : o1 + k < o2 + d2.length
      · exact absurd ⟨by omega, by omega, by omega, h2⟩ (ha (o1 + k))
      · rw [if_neg h2]; exact hf

theorem writeAt_outside (f : Bytes) (o : Nat) (d : Bytes) (q : Nat) (h : ¬ (o ≤ q ∧ q < o + d.length)) :
    (writeAt f o d).getD q 0 = f.getD q 0 := by
  by_cases hd : d = []
  · rw [hd, writeAt_nil]
  · rw [List.getD_eq_getElem?_getD, List.getD_eq_getElem?_getD, writeAt_get f o d q hd]
    by_cases h1 : q < o
    · rw [if_pos h1]
      by_cases h2 : q < f.length
      · rw [if_pos h2]
      · rw [if_neg h2, List.getElem?_eq_none (by omega)]; rfl
    · rw [if_neg h1, if_neg (by omega)]

/-- All segments in the cache written at their offsets. -/
def writeAll (out : Bytes) (as : List Art) : Bytes :=
  as.foldl (fun out a => match a.content with | some d => writeAt out a.off d | none => out) out

theorem writeAll_cons (out : Bytes) (a : Art) (as : List Art) :
    writeAll out (a :: as) = writeAll (match a.content with | some d => writeAt out a.off d | none => out) as := rfl

theorem flushArts_direct (out : Bytes) (as : List Art) :
    flushArts true out as = (writeAll out as, as.map (fun a => { a with content := none })) := by
  induction as generalizing out with
  | nil => rfl
  | cons a as ih =>
    rw [writeAll_cons]
    unfold flushArts flushArt
    cases hc : a.content with
    | none =>
      simp only
      rw [ih]
      simp only [List.map_cons]
      congr 2
      rw [← hc]
    | some d => simp only [if_true]; rw [ih]; rfl

theorem writeCached_eq (out : Bytes) (as : List Art) (h : ∀ a ∈ as, a.content.isSome → a.finished = true) :
    writeCached true out as = some (writeAll out as) := by
  induction as generalizing out with
  | nil => rfl
  | cons a as ih =>
    rw [writeAll_cons]
    unfold writeCached
    have hr := fun o => ih o (fun b hb => h b (List.mem_cons_of_mem _ hb))
    cases hc : a.content with
    | none => simp only [Option.isSome_none, Bool.and_false, Bool.false_eq_true, if_false]; exact hr _
    | some d =>
      have := h a (List.mem_cons_self ..) (by rw [hc]; rfl)
      rw [this]; simp only [Option.isSome_some, Bool.and_self, if_true, Option.getD_some]; exact hr _

theorem writeCached_none (opened : Bool) (out : Bytes) (as : List Art) (h : ∀ a ∈ as, a.content = none) :
    writeCached opened out as = some out := by
  induction as generalizing out with
  | nil => rfl
  | cons a as ih =>
    unfold writeCached
    rw [h a (List.mem_cons_self ..)]
    simp only [Option.isSome_none, Bool.and_false, Bool.false_eq_true, if_false]
    exact ih _ (fun b hb => h b (List.mem_cons_of_mem _ hb))

/-- Bytes of the file that no cached segment touches stay. -/
theorem writeAll_keeps (as : List Art) (out : Bytes) (off : Nat) (d : Bytes) (h : HasAt out off d)
    (ha : ∀ a ∈ as, ∀ e, a.content = some e → Apart off d a.off e) : HasAt (writeAll out as) off d := by
  induction as generalizing out with
  | nil => exact h
  | cons a as ih =>
    rw [writeAll_cons]
    refine ih _ ?_ (fun b hb => ha b (List.mem_cons_of_mem _ hb))
    cases hc : a.content with
    | none => exact h
    | some e => exact hasAt_other _ _ _ _ _ h (ha a (List.mem_cons_self ..) e hc)

theorem writeAll_places (as : List Art) (out : Bytes)
    (hp : as.Pairwise (fun a b => ∀ d e, a.content = some d → b.content = some e → Apart a.off d b.off e)) :
    ∀ a ∈ as, ∀ d, a.content = some d → HasAt (writeAll out as) a.off d := by
  induction as generalizing out with
  | nil => intro a ha; simp at ha
  | cons b as ih =>
    intro a ha d hd
    rw [writeAll_cons]
    obtain ⟨hb, hp'⟩ := List.pairwise_cons.mp hp
    rcases List.mem_cons.mp ha with rfl | ha
    · rw [hd]
      exact writeAll_keeps as _ _ _ (hasAt_self _ _ _) (fun c hc e he => hb c hc d e hd he)
    · exact ih _ hp' a ha d hd

theorem writeAll_outside (as : List Art) (out : Bytes) (q : Nat)
    (h : ∀ a ∈ as, ∀ d, a.content = some d → ¬ (a.off ≤ q ∧ q < a.off + d.length)) :
    (writeAll out as).getD q 0 = out.getD q 0 := by
  induction as generalizing out with
  | nil => rfl
  | cons a as ih =>
    rw [writeAll_cons, ih _ (fun b hb => h b (List.mem_cons_of_mem _ hb))]
    cases hc : a.content with
    | none => rfl
    | some d => exact writeAt_outside _ _ _ _ (h a (List.mem_cons_self ..) d hc)

theorem writeAt_bound (f : Bytes) (o : Nat) (d : Bytes) (n : Nat) (h1 : f.length ≤ n) (h2 : o + d.length ≤ n) :
    f.length ≤ (writeAt f o d).length ∧ (writeAt f o d).length ≤ n := by
  by_cases hd : d = []
  · rw [hd, writeAt_nil]; omega
  · rw [writeAt_length _ _ _ hd]; omega

theorem writeAt_mono (f : Bytes) (o : Nat) (d : Bytes) : f.length ≤ (writeAt f o d).length :=
  (writeAt_bound f o d (max f.length (o + d.length)) (by omega) (by omega)).1

theorem writeAll_mono (as : List Art) (out : Bytes) : out.length ≤ (writeAll out as).length := by
  induction as generalizing out with
  | nil => exact Nat.le_refl _
  | cons a as ih =>
    rw [writeAll_cons]
    refine Nat.le_trans ?_ (ih _)
    cases a.content with
    | none => exact Nat.le_refl _
    | some d => exact writeAt_mono _ _ _

theorem writeAll_bound (as : List Art) (out : Bytes) (n : Nat) (h1 : out.length ≤ n)
    (h2 : ∀ a ∈ as, ∀ d, a.content = some d → a.off + d.length ≤ n) : (writeAll out as).length ≤ n := by
  induction as generalizing out with
  | nil => exact h1
  | cons a as ih =>
    rw [writeAll_cons]
    refine ih _ ?_ (fun b hb => h2 b (List.mem_cons_of_mem _ hb))
    cases hc : a.content with
    | none => exact h1
    | some d => exact (writeAt_bound _ _ _ _ h1 (h2 a (List.mem_cons_self ..) d hc)).2

end Verif.Assemble
