import Verif.Download
import Verif.PoolProps
/-!
Property C13: an article is declared failed only after every eligible server was tried.
-/
namespace Verif.Download
open Verif.Pool

/-- The configuration of a server: everything but the switch and the block time. -/
def conf (s : Server) : Server := { s with active := false, blockTime := 0 }

/-- The pool has the given configuration. -/
structure SameConf (cfg : List Server) (maxNorm : Nat) (p : Pool) : Prop where
  servers : p.servers.map conf = cfg
  maxNorm : p.maxNorm = maxNorm

/-- How often the server answered with a general failure. -/
def failures (log : List (Nat × Tried)) (srv : Nat) : Nat := log.count (srv, .answer .failed)

/-- The server does not have the article or has a damaged one, or the article is too old for it, or it
failed at least `n` times. -/
def GaveUp (n : Nat) (log : List (Nat × Tried)) (srv : Nat) : Prop :=
  (srv, Tried.retention) ∈ log ∨ (srv, Tried.answer .notFound) ∈ log ∨ (srv, Tried.answer .crcError) ∈ log ∨
  n ≤ failures log srv

/-- In this pool state the server cannot be used: switched off, or optional and blocked. -/
def Unusable (p : Pool) (now : Int) (srv : Nat) : Prop :=
  ∃ s ∈ p.servers, s.id = srv ∧ (s.active = false ∨ (s.optional = true ∧ InBlockInterval p.retry now s))

/-- The server need not be tried (again). -/
def Covered (n : Nat) (cfg : List Server) (is : List Inp) (log : List (Nat × Tried)) (s : Server) : Prop :=
  s.maxConn = 0 ∨
  (∃ t ∈ cfg, GaveUp n log t.id ∧ (t = s ∨ (t.group > 0 ∧ t.group = s.group ∧ t.norm = s.norm))) ∨
  (∃ i ∈ is, Unusable i.pool1 i.now1 s.id ∨ Unusable i.pool2 i.now2 s.id)

theorem conf_fields {a b : Server} (h : conf a = conf b) : a.id = b.id ∧ a.level = b.level ∧ a.maxConn = b.maxConn ∧
    a.group = b.group ∧ a.optional = b.optional ∧ a.norm = b.norm := by
  unfold conf at h
  injection h with h1 h2 h3 h4 h5 h6 h7 h8
  exact ⟨h1, h2, h4, h5, h6, h7⟩

theorem failures_append (a b : List (Nat × Tried)) (f : Nat) : failures (a ++ b) f = failures a f + failures b f := by
  unfold failures; exact List.count_append

theorem GaveUp.mono {n : Nat} {log : List (Nat × Tried)} {f : Nat} (h : GaveUp n log f) (x : List (Nat × Tried)) : GaveUp n (log ++ x) f := by
  rcases h with g | g | g | g
  · exact Or.inl (by simp [g])
  · exact Or.inr (Or.inl (by simp [g]))
  · exact Or.inr (Or.inr (Or.inl (by simp [g])))
  · exact Or.inr (Or.inr (Or.inr (by rw [failures_append]; omega)))

theorem Covered.mono {n : Nat} {cfg : List Server} {is is' : List Inp} {log : List (Nat × Tried)} {s : Server}
    (h : Covered n cfg is log s) (hi : ∀ i ∈ is, i ∈ is') (x : List (Nat × Tried)) : Covered n cfg is' (log ++ x) s := by
  rcases h with h | ⟨t, ht, hg, he⟩ | ⟨i, hi', h⟩
  · exact Or.inl h
  · exact Or.inr (Or.inl ⟨t, ht, hg.mono x, he⟩)
  · exact Or.inr (Or.inr ⟨i, hi _ hi', h⟩)

theorem Covered.mono' {n : Nat} {cfg : List Server} {is is' : List Inp} {log : List (Nat × Tried)} {s : Server}
    (h : Covered n cfg is log s) (hi : ∀ i ∈ is, i ∈ is') : Covered n cfg is' log s := by
  have := h.mono hi []
  simpa using this

theorem ids_of_conf {cfg : List Server} {m : Nat} {p : Pool} (h : SameConf cfg m p) (hid : (cfg.map (·.id)).Nodup) :
    (p.servers.map (·.id)).Nodup := by
  have : p.servers.map (·.id) = cfg.map (·.id) := by
    rw [← h.servers, List.map_map]; rfl
  rw [this]; exact hid

theorem in_pool {cfg : List Server} {m : Nat} {p : Pool} (h : SameConf cfg m p) {s : Server} (hs : s ∈ cfg) :
    ∃ t ∈ p.servers, conf t = s := by
  rw [← h.servers] at hs
  exact List.mem_map.1 hs

theorem in_cfg {cfg : List Server} {m : Nat} {p : Pool} (h : SameConf cfg m p) {s : Server} (hs : s ∈ p.servers) : conf s ∈ cfg := by
  rw [← h.servers]; exact List.mem_map_of_mem hs

/-- Invariant of the loop: servers of lower levels are done with; failed servers have given up. -/
structure LoopInv (n : Nat) (cfg : List Server) (is : List Inp) (log : List (Nat × Tried)) (st : St) : Prop where
  lower : ∀ s ∈ cfg, 0 ≤ s.norm → s.norm < st.level → Covered n cfg is log s
  failed : ∀ f ∈ st.failed, GaveUp n log f
  conn : ∀ f, st.conn = some f → ∀ s ∈ cfg, s.id = f → s.norm = st.level

theorem acquire_spec {n : Nat} {cfg : List Server} {m : Nat} (hid : (cfg.map (·.id)).Nodup) {is : List Inp} {log : List (Nat × Tried)} {st : St} {i : Inp}
    (hinv : LoopInv n cfg is log st) (h1 : SameConf cfg m i.pool1) {s : Server} {level : Nat}
    (ha : acquire st i = some (s, level)) :
    s ∈ i.pool1.servers ∧ s.norm = level ∧ st.level ≤ level ∧
      ∀ t ∈ cfg, 0 ≤ t.norm → t.norm < level → Covered n cfg (is ++ [i]) log t := by
  have hids := ids_of_conf h1 hid
  unfold acquire at ha
  cases hc : st.conn with
  | some f =>
    rw [hc] at ha
    cases hf : findServer i.pool1.servers f with
    | none => simp only [hf] at ha; cases ha
    | some x =>
      simp only [hf, Option.map_some, Option.some.injEq, Prod.mk.injEq] at ha
      obtain ⟨hx, hxe⟩ := findServer_mem hf
      have := hinv.conn f hc (conf x) (in_cfg h1 hx) hxe
      have hn : x.norm = st.level := this
      rw [← ha.1, ← ha.2]
      refine ⟨hx, by omega, by omega, ?_⟩
      intro t ht a b
      exact (hinv.lower t ht a (by omega)).mono' (fun _ h => by simp [h])
  | none =>
    rw [hc] at ha
    simp only at ha
    obtain ⟨g, hg | ⟨c, x, lv, hl, _, _, hsk, hch, hg⟩⟩ := getConnection_spec i.pool1 st.level st.want st.failed i.now1 i.rand hids
    · rw [hg] at ha; cases ha
    · rw [hg] at ha
      simp only [hch.smem, Option.map_some, Option.some.injEq, Prod.mk.injEq] at ha
      obtain ⟨hx, _⟩ := findServer_mem hch.smem
      have hn := hch.norm
      rw [← ha.1, ← ha.2]
      refine ⟨hx, by omega, by omega, ?_⟩
      intro t ht a b
      by_cases hlow : t.norm < st.level
      · exact (hinv.lower t ht a hlow).mono' (fun _ h => by simp [h])
      · obtain ⟨y, hy, hye⟩ := in_pool h1 ht
        have hye' : y.norm = t.norm ∧ y.id = t.id := by rw [← hye]; exact ⟨rfl, rfl⟩
        refine Or.inr (Or.inr ⟨i, by simp, Or.inl ⟨y, hy, hye'.2, ?_⟩⟩)
        by_cases hya : y.active = true
        · exact Or.inr ((and_congr_right_iff.2 (fun _ => isBlocked_iff _ _ _)).1 (hsk y hy (by omega) (by omega) hya))
        · left; simpa using hya

theorem allFailed_covered {n : Nat} {cfg : List Server} {m : Nat} (hid : (cfg.map (·.id)).Nodup) {is : List Inp} {i : Inp} {log : List (Nat × Tried)}
    {level : Nat} {failed : List Nat} (h2 : SameConf cfg m i.pool2) (hf : ∀ f ∈ failed, GaveUp n log f)
    (ha : allFailed i.pool2 i.now2 level failed = true) :
    ∀ t ∈ cfg, t.norm = level → Covered n cfg (is ++ [i]) log t := by
  intro t ht hn
  obtain ⟨y, hy, hye⟩ := in_pool h2 ht
  have hye' : y.norm = t.norm ∧ y.id = t.id ∧ y.maxConn = t.maxConn ∧ y.group = t.group := by rw [← hye]; exact ⟨rfl, rfl, rfl, rfl⟩
  unfold allFailed at ha
  rw [List.all_eq_true] at ha
  have := ha y hy
  simp only [hye'.1, hn, decide_true, Bool.not_true, Bool.false_or] at this
  unfold serverFailed at this
  simp only [Bool.or_eq_true, Bool.not_eq_true', beq_iff_eq, Bool.and_eq_true] at this
  rcases this with ((h | h) | h) | h
  · exact Or.inr (Or.inr ⟨i, by simp, Or.inr ⟨y, hy, hye'.2.1, Or.inl h⟩⟩)
  · exact Or.inl (by omega)
  · exact Or.inr (Or.inr ⟨i, by simp, Or.inr ⟨y, hy, hye'.2.1, Or.inr ((and_congr_right_iff.2 (fun _ => isBlocked_iff _ _ _)).1 h)⟩⟩)
  · unfold ignored at h
    rw [List.any_eq_true] at h
    obtain ⟨z, hz, he⟩ := h
    obtain ⟨f, hff, hfe⟩ := List.mem_filterMap.1 hz
    obtain ⟨hz1, hz2⟩ := findServer_mem hfe
    refine Or.inr (Or.inl ⟨conf z, in_cfg h2 hz1, ?_, ?_⟩)
    · have : (conf z).id = f := hz2
      rw [this]; exact hf f hff
    · simp only [Bool.or_eq_true, beq_iff_eq, Bool.and_eq_true, decide_eq_true_eq] at he
      rcases he with e | e
      · left
        have hids := ids_of_conf h2 hid
        have h3 := find_eq_of_nodup hids hz1
        have h4 := find_eq_of_nodup hids hy
        rw [e, h4] at h3
        injection h3 with h3
        rw [← h3, hye]
      · right
        refine ⟨e.1.1, ?_, ?_⟩
        · have : (conf z).group = z.group := rfl
          rw [this, e.1.2, hye'.2.2.2]
        · have : (conf z).norm = z.norm := rfl
          rw [this, e.2, hye'.1]

theorem round_spec {cfg : List Server} {m n retries : Nat} (hid : (cfg.map (·.id)).Nodup) (hmax : ∀ s ∈ cfg, s.norm ≤ m)
    {is : List Inp} {log : List (Nat × Tried)} {st : St} {i : Inp}
    (hinv : LoopInv n cfg is log st) (h1 : SameConf cfg m i.pool1) (h2 : SameConf cfg m i.pool2)
    (hgive : ∀ s level, acquire st i = some (s, level) → attempt i = .answer .failed →
      again (attempt i) (remainedAfter (attempt i) st.remained) = false → n ≤ failures log s.id + 1) :
    (∀ st', (round retries st i).1 = .again st' → LoopInv n cfg (is ++ [i]) (log ++ (round retries st i).2) st') ∧
    ((round retries st i).1 = .stop .failed → ∀ s ∈ cfg, 0 ≤ s.norm → Covered n cfg (is ++ [i]) (log ++ (round retries st i).2) s) := by
  unfold round
  split
  · exact ⟨fun _ h => (by cases h), fun h => (by cases h)⟩
  rename_i hh1
  split
  · rename_i ha
    refine ⟨fun st' h => ?_, fun h => (by cases h)⟩
    injection h with h
    rw [← h]
    exact ⟨fun s a b c => (hinv.lower s a b c).mono (fun _ h => by simp [h]) _,
      fun f hf => (hinv.failed f hf).mono _, hinv.conn⟩
  rename_i s level ha
  obtain ⟨hs, hn, hle, hcov⟩ := acquire_spec hid hinv h1 ha
  have hcov' : ∀ t ∈ cfg, 0 ≤ t.norm → t.norm < level → Covered n cfg (is ++ [i]) (log ++ [(s.id, attempt i)]) t :=
    fun t a b c => (hcov t a b c).mono (fun _ h => h) _
  have hfail' : ∀ f ∈ st.failed, GaveUp n (log ++ [(s.id, attempt i)]) f := fun f hf => (hinv.failed f hf).mono _
  dsimp only
  generalize attempt i = t at *
  generalize remainedAfter t st.remained = rem at *
  unfold conclude
  by_cases e1 : t = .answer .finished
  · rw [if_pos e1]
    exact ⟨fun _ h => (by cases h), fun h => (by cases h)⟩
  rw [if_neg e1]
  by_cases e2 : t = .answer .fatalError
  · rw [if_pos e2]
    exact ⟨fun _ h => (by cases h), fun h => (by cases h)⟩
  rw [if_neg e2]
  by_cases e3 : i.halt2 = true
  · rw [if_pos e3]
    exact ⟨fun _ h => (by cases h), fun h => (by cases h)⟩
  rw [if_neg e3]
  by_cases e4 : again t rem = true
  · -- try the same server again
    rw [if_pos e4]
    refine ⟨fun st' h => ?_, fun h => (by cases h)⟩
    injection h with h
    rw [← h]
    refine ⟨hcov', hfail', ?_⟩
    intro f hf x hx hxe
    simp only at hf
    split at hf
    · cases hf
    · injection hf with hf
      obtain ⟨y, hy, hye⟩ := in_pool h1 hx
      have hids := ids_of_conf h1 hid
      have h3 := find_eq_of_nodup hids hy
      have h4 := find_eq_of_nodup hids hs
      have : y.id = s.id := by rw [hf, ← hxe, ← hye]; rfl
      rw [this, h4] at h3
      injection h3 with h3
      have : x.norm = y.norm := by rw [← hye]; rfl
      simp only
      rw [this, ← h3]; exact hn
  rw [if_neg e4]
  by_cases e5 : (isConnected t || decide (t = .retention) || optBlocked t s) = true
  · rw [if_pos e5]
    -- the next server
    have hg : ∀ f ∈ (if (!optBlocked t s) = true then st.failed ++ [s.id] else st.failed), GaveUp n (log ++ [(s.id, t)]) f := by
      intro f hf
      split at hf
      · rename_i hb
        rcases List.mem_append.1 hf with hf | hf
        · exact hfail' f hf
        · simp only [List.mem_singleton] at hf
          subst hf
          have hx : (s.id, t) ∈ log ++ [(s.id, t)] := by simp
          have hno : optBlocked t s = false := by simpa using hb
          rw [hno] at e5
          cases t with
          | retention => exact Or.inl hx
          | unavailable => simp [isConnected] at e5
          | answer d =>
            cases d with
            | finished => exact absurd rfl e1
            | fatalError => exact absurd rfl e2
            | notFound => exact Or.inr (Or.inl hx)
            | crcError => exact Or.inr (Or.inr (Or.inl hx))
            | failed =>
              refine Or.inr (Or.inr (Or.inr ?_))
              rw [failures_append]
              have := hgive s level ha rfl (by simpa using e4)
              have h1 : failures [(s.id, Tried.answer .failed)] s.id = 1 := by simp [failures]
              omega
            | connectError => simp [isConnected] at e5
      · exact hfail' f hf
    have haf := allFailed_covered (is := is) (level := level) hid h2 hg
    unfold nextServer
    dsimp only
    by_cases hall : allFailed i.pool2 i.now2 level (if (!optBlocked t s) = true then st.failed ++ [s.id] else st.failed) = true
    · rw [if_pos hall]
      have hc2 := haf hall
      have hlow : ∀ x ∈ cfg, 0 ≤ x.norm → x.norm < (level + 1 : Nat) → Covered n cfg (is ++ [i]) (log ++ [(s.id, t)]) x := by
        intro x hx a b
        by_cases hl : x.norm < level
        · exact hcov' x hx a hl
        · exact hc2 x hx (by omega)
      split
      · refine ⟨fun st' h => ?_, fun h => (by cases h)⟩
        injection h with h
        rw [← h]
        exact ⟨hlow, hg, fun f hf => (by cases hf)⟩
      · rename_i hmx
        refine ⟨fun st' h => (by cases h), fun _ x hx a => ?_⟩
        rw [h2.maxNorm] at hmx
        exact hlow x hx a (by have := hmax x hx; omega)
    · rw [if_neg hall]
      refine ⟨fun st' h => ?_, fun h => (by cases h)⟩
      injection h with h
      rw [← h]
      exact ⟨hcov', hg, fun f hf => (by cases hf)⟩
  · rw [if_neg e5]
    refine ⟨fun st' h => ?_, fun h => (by cases h)⟩
    injection h with h
    rw [← h]
    exact ⟨hcov', hfail', fun f hf => (by cases hf)⟩

theorem loop_spec {cfg : List Server} {m n retries : Nat} (hid : (cfg.map (·.id)).Nodup) (hmax : ∀ s ∈ cfg, s.norm ≤ m)
    (J : List (Nat × Tried) → St → Prop) (Q : Inp → Prop)
    (hstep : ∀ log st i st', Q i → J log st → (round retries st i).1 = .again st' → J (log ++ (round retries st i).2) st')
    (hgive : ∀ log st i, Q i → J log st → ∀ s level, acquire st i = some (s, level) → attempt i = .answer .failed →
      again (attempt i) (remainedAfter (attempt i) st.remained) = false → n ≤ failures log s.id + 1) (is : List Inp) :
    ∀ (st : St) (is0 : List Inp) (log : List (Nat × Tried)), LoopInv n cfg is0 log st → J log st →
    (∀ i ∈ is, SameConf cfg m i.pool1 ∧ SameConf cfg m i.pool2 ∧ Q i) →
    (loop retries st is).1 = some .failed → ∀ s ∈ cfg, 0 ≤ s.norm → Covered n cfg (is0 ++ is) (log ++ (loop retries st is).2) s := by
  induction is with
  | nil => intro st is0 log _ _ _ h; cases h
  | cons i is ih =>
    intro st is0 log hinv hj hc h s hs h0
    obtain ⟨hc1, hc2, hq⟩ := hc i (by simp)
    obtain ⟨r1, r2⟩ := round_spec (retries := retries) hid hmax hinv hc1 hc2 (hgive log st i hq hj)
    have r3 := hstep log st i
    rw [loop] at h ⊢
    cases hr : round retries st i with
    | mk o a =>
      rw [hr] at h r1 r2 r3
      cases o with
      | stop x =>
        simp only [Option.some.injEq] at h
        subst h
        simp only
        exact (r2 rfl s hs h0).mono' (fun j hj => by simp at hj ⊢; rcases hj with h | h; exact Or.inl h; exact Or.inr (Or.inl h))
      | again st' =>
        simp only at h ⊢
        have := ih st' (is0 ++ [i]) (log ++ a) (r1 st' rfl) (r3 st' hq hj rfl) (fun j hj => hc j (by simp [hj])) h s hs h0
        simpa [List.append_assoc] using this

/-- C13. If the download loop of an article, driven by any pool states of one server configuration and any
network outcomes, ends as failed (other than by a fatal local error) then every configured server taking
part in some level has no connections, or gave a definite negative answer (not found, CRC error, failure,
too old), or such an answer came from a server of the same group and level, or it was seen switched off or
optional and blocked. -/
theorem failed_only_after_all_tried (cfg : List Server) (m : Nat) (hid : (cfg.map (·.id)).Nodup)
    (hmax : ∀ s ∈ cfg, s.norm ≤ m) (articleRetries : Int) (is : List Inp)
    (hc : ∀ i ∈ is, SameConf cfg m i.pool1 ∧ SameConf cfg m i.pool2)
    (h : (run articleRetries is).1 = some .failed) :
    ∀ s ∈ cfg, 0 ≤ s.norm → Covered 1 cfg is (run articleRetries is).2 s := by
  unfold run at h ⊢
  dsimp only at h ⊢
  have := loop_spec (n := 1) (retries := if articleRetries > 0 then articleRetries.toNat else 1) hid hmax
    (fun _ _ => True) (fun _ => True) (fun _ _ _ _ _ _ _ => trivial) (fun _ _ _ _ _ _ _ _ _ _ => by omega) is
    { remained := if articleRetries > 0 then articleRetries.toNat else 1 } [] []
    ⟨fun s _ a b => (by simp only at b; omega), fun f hf => (by cases hf), fun f hf => (by cases hf)⟩ trivial
    (fun i hi => ⟨(hc i hi).1, (hc i hi).2, trivial⟩) h
  simpa using this

/-! ## C51: a server is given up for general failures only after `ArticleRetries` attempts -/

/-- Invariant of the loop when connecting always works and there are no server groups. -/
structure RetryInv (retries : Nat) (log : List (Nat × Tried)) (st : St) : Prop where
  none_ : st.want = none → st.remained = retries ∧ st.conn = none
  some_ : ∀ w, st.want = some w → retries ≤ failures log w + st.remained ∧ 0 < st.remained
  conn : ∀ f, st.conn = some f → st.want = some f
  pos : 0 < retries

/-- Without groups a retry gets the wanted server. -/
theorem acquire_want {st : St} {i : Inp} {retries : Nat} {log : List (Nat × Tried)} (hinv : RetryInv retries log st)
    (hids : (i.pool1.servers.map (·.id)).Nodup) (hgrp : ∀ s ∈ i.pool1.servers, s.group = 0)
    (hw : ∀ w, st.want = some w → ∃ s ∈ i.pool1.servers, s.id = w)
    {s : Server} {level : Nat} (ha : acquire st i = some (s, level)) (w : Nat) (hwant : st.want = some w) : s.id = w := by
  unfold acquire at ha
  cases hc : st.conn with
  | some f =>
    rw [hc] at ha
    have := hinv.conn f hc
    rw [hwant] at this
    injection this with this
    subst this
    cases hf : findServer i.pool1.servers w with
    | none => simp only [hf] at ha; cases ha
    | some x =>
      simp only [hf, Option.map_some, Option.some.injEq, Prod.mk.injEq] at ha
      rw [← ha.1]; exact (findServer_mem hf).2
  | none =>
    rw [hc] at ha
    simp only at ha
    obtain ⟨g, hg | ⟨c, x, lv, hl, _, _, hsk, hch, hg⟩⟩ := getConnection_spec i.pool1 st.level st.want st.failed i.now1 i.rand hids
    · rw [hg] at ha; cases ha
    · rw [hg] at ha
      simp only [hch.smem, Option.map_some, Option.some.injEq, Prod.mk.injEq] at ha
      obtain ⟨y, hy, hye⟩ := hw w hwant
      have hfy : findServer i.pool1.servers w = some y := by rw [← hye]; exact find_eq_of_nodup hids hy
      have := hch.wants
      rw [hwant] at this
      simp only [Option.bind_some, hfy, wanted, Bool.or_eq_true, beq_iff_eq, Bool.and_eq_true, decide_eq_true_eq] at this
      rw [hgrp y hy] at this
      rw [← ha.1]
      rcases this with e | e
      · rw [← e, hye]
      · omega

theorem retry_step {retries : Nat} {log : List (Nat × Tried)} {st st' : St} {i : Inp} (hinv : RetryInv retries log st)
    (hids : (i.pool1.servers.map (·.id)).Nodup) (hgrp : ∀ s ∈ i.pool1.servers, s.group = 0)
    (hw : ∀ w, st.want = some w → ∃ s ∈ i.pool1.servers, s.id = w)
    (hcon : i.connect = true ∧ i.dl ≠ .connectError)
    (h : (round retries st i).1 = .again st') :
    RetryInv retries (log ++ (round retries st i).2) st' ∧ ∀ w, st'.want = some w → ∃ s ∈ i.pool1.servers, s.id = w := by
  unfold round at h ⊢
  by_cases hh : i.halt1 = true
  · rw [if_pos hh] at h; cases h
  rw [if_neg hh] at h ⊢
  cases ha : acquire st i with
  | none =>
    rw [ha] at h
    simp only [ha] at h ⊢
    injection h with h
    subst h
    rw [List.append_nil]; exact ⟨hinv, hw⟩
  | some r =>
    obtain ⟨s, level⟩ := r
    simp only [ha] at h ⊢
    have hwant := acquire_want hinv hids hgrp hw ha
    have hsm : s ∈ i.pool1.servers := by
      unfold acquire at ha
      split at ha
      · rename_i srv _
        cases hf : findServer i.pool1.servers srv with
        | none => rw [hf] at ha; cases ha
        | some x =>
          simp only [hf, Option.map_some, Option.some.injEq, Prod.mk.injEq] at ha
          rw [← ha.1]; exact (findServer_mem hf).1
      · split at ha
        · cases ha
        · rename_i c _
          cases hf : findServer i.pool1.servers c.srv with
          | none => rw [hf] at ha; cases ha
          | some x =>
            simp only [hf, Option.map_some, Option.some.injEq, Prod.mk.injEq] at ha
            rw [← ha.1]; exact (findServer_mem hf).1
    unfold conclude at h
    by_cases e1 : attempt i = .answer .finished
    · rw [if_pos e1] at h; cases h
    rw [if_neg e1] at h
    by_cases e2 : attempt i = .answer .fatalError
    · rw [if_pos e2] at h; cases h
    rw [if_neg e2] at h
    by_cases e3 : i.halt2 = true
    · rw [if_pos e3] at h; cases h
    rw [if_neg e3] at h
    by_cases e4 : again (attempt i) (remainedAfter (attempt i) st.remained) = true
    · rw [if_pos e4] at h
      injection h with h
      subst h
      unfold again at e4
      simp only [Bool.and_eq_true, decide_eq_true_eq] at e4
      have hr : remainedAfter (attempt i) st.remained = st.remained - 1 := by unfold remainedAfter; rw [if_pos e4.1]
      refine ⟨⟨fun h => (by cases h), ?_, ?_, hinv.pos⟩, ?_⟩
      · intro w hwq
        simp only [Option.some.injEq] at hwq
        subst hwq
        simp only
        rw [hr, failures_append, e4.1]
        have h1 : failures [(s.id, Tried.answer .failed)] s.id = 1 := by simp [failures]
        rw [hr] at e4
        cases hsw : st.want with
        | none => have := (hinv.none_ hsw).1; omega
        | some w =>
          have := hwant w hsw
          have h2 := hinv.some_ w hsw
          rw [← this] at h2
          omega
      · intro f hf
        simp only at hf ⊢
        split at hf
        · cases hf
        · exact hf
      · intro w hwq
        simp only [Option.some.injEq] at hwq
        exact ⟨s, hsm, hwq⟩
    rw [if_neg e4] at h
    have hfresh : ∀ st'' : St, st''.want = none → st''.remained = retries → st''.conn = none →
        RetryInv retries (log ++ [(s.id, attempt i)]) st'' ∧ ∀ w, st''.want = some w → ∃ s ∈ i.pool1.servers, s.id = w := by
      intro st'' a b c
      exact ⟨⟨fun _ => ⟨b, c⟩, fun w hw => (by rw [a] at hw; cases hw), fun f hf => (by rw [c] at hf; cases hf), hinv.pos⟩,
        fun w hw => (by rw [a] at hw; cases hw)⟩
    have hconn : (isConnected (attempt i) || decide (attempt i = .retention) || optBlocked (attempt i) s) = true := by
      unfold attempt
      by_cases hret : i.retention = true
      · simp [hret]
      · simp only [hret, hcon.1, Bool.false_eq_true, if_false, if_true]
        have : isConnected (.answer i.dl) = true := by
          have h2 := hcon.2
          cases hdl : i.dl <;> first | rfl | exact absurd hdl h2
        rw [this]; rfl
    rw [if_pos hconn] at h
    unfold nextServer at h
    dsimp only at h
    generalize (if (!optBlocked (attempt i) s) = true then st.failed ++ [s.id] else st.failed) = fl at h
    by_cases hall : allFailed i.pool2 i.now2 level fl = true
    · rw [if_pos hall] at h
      by_cases hlv : level < i.pool2.maxNorm
      · rw [if_pos hlv] at h
        injection h with h
        subst h
        exact hfresh _ rfl rfl rfl
      · rw [if_neg hlv] at h; cases h
    · rw [if_neg hall] at h
      injection h with h
      subst h
      exact hfresh _ rfl rfl rfl

/-- C51 (what holds). When connections can always be established and no server is in a group, a failed
download means that every server of every level reported the article missing or damaged or too old, or failed at least `ArticleRetries`
times (or was switched off, or optional and blocked, or has no connections). -/
theorem retries_respected_partial (cfg : List Server) (m : Nat) (hid : (cfg.map (·.id)).Nodup)
    (hmax : ∀ s ∈ cfg, s.norm ≤ m) (hgrp : ∀ s ∈ cfg, s.group = 0) (articleRetries : Int) (is : List Inp)
    (hc : ∀ i ∈ is, SameConf cfg m i.pool1 ∧ SameConf cfg m i.pool2)
    (hconn : ∀ i ∈ is, i.connect = true ∧ i.dl ≠ .connectError)
    (h : (run articleRetries is).1 = some .failed) :
    ∀ s ∈ cfg, 0 ≤ s.norm → Covered (max 1 articleRetries).toNat cfg is (run articleRetries is).2 s := by
  unfold run at h ⊢
  dsimp only at h ⊢
  have hn : (if articleRetries > 0 then articleRetries.toNat else 1) = (max 1 articleRetries).toNat := by split <;> omega
  rw [hn] at h ⊢
  have hpos : 0 < (max 1 articleRetries).toNat := by omega
  generalize (max 1 articleRetries).toNat = r at h hpos ⊢
  have hids : ∀ p : Pool, p.servers.map conf = cfg → ∀ w, (∃ s ∈ p.servers, s.id = w) ↔ ∃ s ∈ cfg, s.id = w := by
    intro p hp w
    rw [← hp]
    constructor
    · rintro ⟨s, hs, e⟩; exact ⟨conf s, List.mem_map_of_mem hs, e⟩
    · rintro ⟨s, hs, e⟩
      obtain ⟨t, ht, rfl⟩ := List.mem_map.1 hs
      exact ⟨t, ht, e⟩
  have hg : ∀ p : Pool, p.servers.map conf = cfg → ∀ s ∈ p.servers, s.group = 0 := by
    intro p hp s hs
    have : conf s ∈ cfg := by rw [← hp]; exact List.mem_map_of_mem hs
    exact hgrp (conf s) this
  have hfinal := loop_spec (n := r) (retries := r) hid hmax
    (fun log st => RetryInv r log st ∧ ∀ w, st.want = some w → ∃ s ∈ cfg, s.id = w)
    (fun i => SameConf cfg m i.pool1 ∧ i.connect = true ∧ i.dl ≠ .connectError)
    (by
      intro log st i st' hq hj hr
      have := retry_step hj.1 (ids_of_conf hq.1 hid) (hg _ hq.1.servers)
        (fun w hw => (hids _ hq.1.servers w).2 (hj.2 w hw)) hq.2 hr
      exact ⟨this.1, fun w hw => (hids _ hq.1.servers w).1 (this.2 w hw)⟩)
    (by
      intro log st i hq hj s level ha hf hag
      have hwant := acquire_want hj.1 (ids_of_conf hq.1 hid) (hg _ hq.1.servers)
        (fun w hw => (hids _ hq.1.servers w).2 (hj.2 w hw)) ha
      rw [hf] at hag
      unfold again remainedAfter at hag
      simp only [decide_true, if_true, Bool.true_and, decide_eq_false_iff_not, gt_iff_lt, Nat.not_lt, Nat.le_zero] at hag
      cases hsw : st.want with
      | none => have := (hj.1.none_ hsw).1; omega
      | some w =>
        have h2 := hj.1.some_ w hsw
        rw [← hwant w hsw] at h2
        omega)
    is { remained := r } [] []
    ⟨fun s _ a b => (by simp only at b; omega), fun f hf => (by cases hf), fun f hf => (by cases hf)⟩
    ⟨⟨fun _ => ⟨rfl, rfl⟩, fun w hw => (by cases hw), fun f hf => (by cases hf), hpos⟩, fun w hw => (by cases hw)⟩
    (fun i hi => ⟨(hc i hi).1, (hc i hi).2, (hc i hi).1, hconn i hi⟩) h
  simpa using hfinal

/-- A download that succeeded: the last server tried delivered the article. -/
theorem finished_means_delivered (retries : Nat) (is : List Inp) : ∀ st,
    (loop retries st is).1 = some .finished → ∃ log srv, (loop retries st is).2 = log ++ [(srv, .answer .finished)] := by
  induction is with
  | nil => intro st h; cases h
  | cons i is ih =>
    intro st h
    rw [loop] at h ⊢
    cases hr : round retries st i with
    | mk o a =>
      rw [hr] at h
      cases o with
      | again st' =>
        simp only at h ⊢
        obtain ⟨log, srv, e⟩ := ih st' h
        exact ⟨a ++ log, srv, by rw [e, List.append_assoc]⟩
      | stop x =>
        simp only [Option.some.injEq] at h
        subst h
        simp only
        unfold round at hr
        split at hr
        · cases hr
        split at hr
        · cases hr
        injection hr with hr1 hr2
        rename_i s level _
        by_cases e1 : attempt i = .answer .finished
        · exact ⟨[], s.id, by rw [← hr2, e1]; rfl⟩
        · exfalso
          revert hr1
          unfold conclude
          rw [if_neg e1]
          split
          · intro h; cases h
          split
          · intro h; cases h
          split
          · intro h; cases h
          split
          · unfold nextServer
            dsimp only
            generalize (if (!optBlocked (attempt i) s) = true then st.failed ++ [s.id] else st.failed) = fl
            split
            · split <;> (intro h; cases h)
            · intro h; cases h
          · intro h; cases h

/-! ### Witness: two levels, the first server lacks the article, the second fails twice -/

def exPool : Pool := ((Pool.run (start exServers 10) [.init id]).map (·.1)).getD (start [] 0)

def exInp (d : Dl) : Inp :=
  { pool1 := exPool, now1 := 100, rand := 0, halt1 := false, retention := false, connect := true, dl := d, freed := true,
    pool2 := exPool, now2 := 100, halt2 := false }

example : run 2 [exInp .notFound, exInp .failed, exInp .failed] =
    (some .failed, [(11, .answer .notFound), (10, .answer .failed), (10, .answer .failed)]) := by decide +kernel

example : (∀ i ∈ [exInp .notFound, exInp .failed, exInp .failed],
    SameConf (exPool.servers.map conf) 1 i.pool1 ∧ SameConf (exPool.servers.map conf) 1 i.pool2) ∧
    ((exPool.servers.map conf).map (·.id)).Nodup ∧ (∀ s ∈ exPool.servers.map conf, s.norm ≤ 1) ∧
    (exPool.servers.map conf).map (fun s => (s.id, s.norm)) = [(11, 0), (10, 1)] := by
  refine ⟨?_, by decide +kernel, by decide +kernel, by decide +kernel⟩
  have h : exPool.maxNorm = 1 := by decide +kernel
  intro i hi
  simp only [List.mem_cons, List.not_mem_nil, or_false] at hi
  rcases hi with rfl | rfl | rfl <;> exact ⟨⟨rfl, h⟩, ⟨rfl, h⟩⟩

/-- A pool with two servers on one level and no groups. -/
def exPool2 : Pool := ((Pool.run (start [{ id := 1, level := 0, active := true, maxConn := 1 }, { id := 2, level := 0, active := true, maxConn := 1 }] 10)
  [.init id]).map (·.1)).getD (start [] 0)

def exInp2 (connect : Bool) (rand : Nat) (d : Dl) : Inp :=
  { pool1 := exPool2, now1 := 100, rand := rand, halt1 := false, retention := false, connect := connect, dl := d, freed := true,
    pool2 := exPool2, now2 := 100, halt2 := false }

/-- C51 as stated is wrong: with `ArticleRetries` 2, server 1 fails once and then cannot be connected; the
loop goes on with server 2 and gives it up after a single failure (then server 1 after two more). -/
theorem retries_not_respected : run 2 [exInp2 true 0 .failed, exInp2 false 0 .failed, exInp2 true 1 .failed, exInp2 true 0 .notFound] =
    (some .failed, [(1, .answer .failed), (1, .unavailable), (2, .answer .failed), (1, .answer .notFound)]) := by decide +kernel

end Verif.Download
