import Verif.Erc20Peg.Spec

/-!
# The schedule of delayed payments
-/

namespace Verif.Erc20Peg

/-- The payment ids scheduled for a block. -/
def sch (s : St) (b : Nat) : List Nat := (s.sched b).getD []

/-- The payment ids waiting in the ready blocks, oldest block first. -/
def queue (s : St) : List Nat := s.ready.flatMap (sch s)

/-! ## processing one payment -/

theorem processDeposit_frame {c : Cfg} {s s' : St} {d : Dep} (h : processDeposit c s d = .ok s') :
    s'.payments = s.payments ∧ s'.sched = s.sched ∧ s'.ready = s.ready ∧ s'.nextId = s.nextId ∧ s'.now = s.now ∧
    s'.delay = s.delay := by
  simp only [processDeposit, bind_ok, pure_ok] at h
  obtain ⟨r, hr, L, _, rfl⟩ := h
  unfold assetFor at hr
  split at hr
  · cases hr; exact ⟨rfl, rfl, rfl, rfl, rfl, rfl⟩
  · simp only [bind_ok, pure_ok] at hr
    obtain ⟨a, _, rfl⟩ := hr
    exact ⟨rfl, rfl, rfl, rfl, rfl, rfl⟩

theorem process_frame (c : Cfg) (s : St) (id : Nat) :
    (process c s id).payments = upd s.payments id none ∧ (process c s id).sched = s.sched ∧
    (process c s id).ready = s.ready ∧ (process c s id).nextId = s.nextId ∧ (process c s id).now = s.now ∧
    (process c s id).delay = s.delay := by
  unfold process
  cases hp : s.payments id with
  | none =>
    refine ⟨?_, rfl, rfl, rfl, rfl, rfl⟩
    funext i
    by_cases e : i = id
    · subst e; rw [upd_same]; exact hp
    · rw [upd_ne _ _ e]
  | some p =>
    cases p with
    | deposit d =>
      simp only
      split
      · rename_i s1 h1
        exact processDeposit_frame h1
      · exact ⟨rfl, rfl, rfl, rfl, rfl, rfl⟩
    | withdrawal src w =>
      simp only
      split <;> exact ⟨rfl, rfl, rfl, rfl, rfl, rfl⟩

theorem processDeposit_sched (c : Cfg) (s : St) (d : Dep) (f : Nat → Option (List Nat)) :
    processDeposit c { s with sched := f } d = (processDeposit c s d).map (fun s' => { s' with sched := f }) := by
  unfold processDeposit assetFor
  simp only
  cases s.toAsset d.token with
  | some a =>
    simp only [bind, Except.bind]
    cases mintOrTransfer c s.ledger a d.ben d.amount <;> rfl
  | none =>
    simp only
    cases newAsset c s.nextAsset with
    | none => rfl
    | some a =>
      simp only [okOr, bind, Except.bind, pure, Except.pure]
      cases mintOrTransfer c s.ledger a d.ben d.amount <;> rfl

/-- The schedule plays no part in processing. -/
theorem process_sched (c : Cfg) (s : St) (f : Nat → Option (List Nat)) (id : Nat) :
    process c { s with sched := f } id = { process c s id with sched := f } := by
  unfold process
  simp only
  cases hp : s.payments id with
  | none => rfl
  | some p =>
    cases p with
    | deposit d =>
      simp only
      have := processDeposit_sched c { s with payments := upd s.payments id none } d f
      simp only at this
      rw [this]
      cases processDeposit c { s with payments := upd s.payments id none } d <;> rfl
    | withdrawal src w =>
      simp only
      split <;> rfl

theorem fold_sched (c : Cfg) (f : Nat → Option (List Nat)) : ∀ (l : List Nat) (s : St),
    l.foldl (process c) { s with sched := f } = { l.foldl (process c) s with sched := f }
  | [], _ => rfl
  | i :: l, s => by
    simp only [List.foldl_cons]
    rw [process_sched, fold_sched c f l]

theorem fold_frame (c : Cfg) : ∀ (l : List Nat) (s : St),
    (∀ i, (l.foldl (process c) s).payments i = if i ∈ l then none else s.payments i) ∧
    (l.foldl (process c) s).sched = s.sched ∧
    (l.foldl (process c) s).ready = s.ready ∧ (l.foldl (process c) s).nextId = s.nextId ∧
    (l.foldl (process c) s).now = s.now ∧ (l.foldl (process c) s).delay = s.delay
  | [], s => ⟨fun i => by simp, rfl, rfl, rfl, rfl, rfl⟩
  | j :: l, s => by
    simp only [List.foldl_cons]
    obtain ⟨h1, h2, h3, h4, h5, h6⟩ := fold_frame c l (process c s j)
    obtain ⟨k1, k2, k3, k4, k5, k6⟩ := process_frame c s j
    refine ⟨fun i => ?_, by rw [h2, k2], by rw [h3, k3], by rw [h4, k4], by rw [h5, k5], by rw [h6, k6]⟩
    rw [h1 i, k1, upd_apply]
    by_cases hi : i = j
    · simp [hi]
    · simp [hi]

/-! ## the idle loop -/

theorem flatMap_congr' {α β : Type} {f g : α → List β} : ∀ {l : List α}, (∀ a ∈ l, f a = g a) → l.flatMap f = l.flatMap g
  | [], _ => rfl
  | a :: l, h => by
    simp only [List.flatMap_cons]
    rw [h a List.mem_cons_self, flatMap_congr' (fun b hb => h b (List.mem_cons_of_mem _ hb))]

/-- What the loop does: it executes the first payments of the ready blocks, as many as allowed; blocks it drops from the
list have no payments left. -/
theorem idleLoop_spec (c : Cfg) (m : Nat) : ∀ (bs : List Nat) (s : St) (n k : Nat), bs.Nodup → n ≤ m →
    (n < m ∨ n = 0) →
    ∃ f, (idleLoop c m bs s n k).1 = { ((bs.flatMap (sch s)).take (m - n)).foldl (process c) s with sched := f } ∧
      (bs.flatMap (fun b => (f b).getD [])) = (bs.flatMap (sch s)).drop (m - n) ∧
      (∀ b, b ∉ bs → f b = s.sched b) ∧
      (∀ b, ∃ j, (f b).getD [] = (sch s b).drop j) ∧
      (∃ j, (idleLoop c m bs s n k).2 ≤ k + j ∧ j ≤ bs.length ∧ ∀ b ∈ bs.take j, (f b).getD [] = [])
  | [], s, n, k, _, _, _ => by
    refine ⟨s.sched, ?_, ?_, fun _ _ => rfl, fun b => ⟨0, rfl⟩, 0, ?_, ?_, ?_⟩ <;> simp [idleLoop]
  | b :: bs, s, n, k, hnd, hn, hn' => by
    obtain ⟨hb, hnd'⟩ := List.nodup_cons.mp hnd
    have hlen : (b :: bs).flatMap (sch s) = sch s b ++ bs.flatMap (sch s) := List.flatMap_cons
    rw [hlen]
    unfold idleLoop
    simp only
    change ∃ f, (if m ≤ n + ((sch s b).take (m - n)).length then _ else _ : St × Nat).1 = _ ∧ _
    generalize hids : sch s b = ids
    have hids' : (s.sched b).getD [] = ids := hids
    simp only [hids']
    -- the schedule after this block
    generalize hg : upd s.sched b (if m - n < ids.length then some (ids.drop (m - n)) else none) = g
    have hgb : (g b).getD [] = ids.drop (m - n) := by
      rw [← hg, upd_same]
      split
      · rfl
      · rw [List.drop_eq_nil_of_le (by omega)]; rfl
    have hgn : ∀ b', b' ≠ b → g b' = s.sched b' := fun b' h => by rw [← hg, upd_ne _ _ h]
    rw [fold_sched]
    split
    · -- the limit is reached
      rename_i hm
      have hle : m - n ≤ ids.length := by
        rw [List.length_take] at hm
        omega
      refine ⟨g, ?_, ?_, ?_, ?_, ?_⟩
      · simp only
        rw [List.take_append_of_le_length hle]
      · rw [List.flatMap_cons, hgb, List.drop_append_of_le_length hle]
        congr 1
        exact flatMap_congr' (fun a ha => by rw [hgn a (fun e => hb (e ▸ ha))]; rfl)
      · intro b' hb'
        exact hgn b' (fun e => hb' (e ▸ List.mem_cons_self))
      · intro b'
        by_cases e : b' = b
        · subst e; exact ⟨m - n, by rw [hgb, hids]⟩
        · exact ⟨0, by rw [hgn b' e]; rfl⟩
      · by_cases hlt : m - n < ids.length
        · exact ⟨0, by simp [hlt], by simp, by simp⟩
        · refine ⟨1, ?_, by simp, ?_⟩
          · simp only [hlt, if_false]; exact Nat.mod_le _ _
          · intro b' hb'
            simp only [List.take_succ_cons, List.take_zero, List.mem_singleton] at hb'
            subst hb'
            rw [hgb, List.drop_eq_nil_of_le (by omega)]
    · -- the block is done
      rename_i hm
      have hlen2 : (ids.take (m - n)).length = ids.length := by
        rw [List.length_take] at hm ⊢; omega
      have hle : ids.length < m - n := by rw [hlen2] at hm; omega
      have htake : ids.take (m - n) = ids := List.take_of_length_le (by omega)
      have hnlt : ¬ (m - n < ids.length) := by omega
      simp only [htake, hnlt, if_false] at hm ⊢
      obtain ⟨f, h1, h2, h3, h4, j, h5, h6, h7⟩ := idleLoop_spec c m bs
        { ids.foldl (process c) s with sched := g } (n + ids.length) ((k + 1) % 256) hnd' (by omega) (by omega)
      have hs1 : ∀ b' ∈ bs, sch { ids.foldl (process c) s with sched := g } b' = sch s b' := by
        intro b' hb'
        unfold sch
        simp only
        rw [hgn b' (fun e => hb (e ▸ hb'))]
      have hfm : bs.flatMap (sch { ids.foldl (process c) s with sched := g }) = bs.flatMap (sch s) := flatMap_congr' hs1
      rw [hfm] at h1 h2
      have hsub : m - (n + ids.length) = m - n - ids.length := by omega
      rw [hsub] at h1 h2
      have hdrop : ids.drop (m - n) = [] := List.drop_eq_nil_of_le (by omega)
      have hfb : (f b).getD [] = [] := by
        rw [h3 b hb]
        simp only
        rw [hgb, List.drop_eq_nil_of_le (by omega)]
      refine ⟨f, ?_, ?_, ?_, ?_, j + 1, ?_, by simpa using h6, ?_⟩
      · rw [h1, fold_sched]
        simp only
        rw [List.take_append, htake, List.foldl_append]
      · rw [List.flatMap_cons, hfb, List.nil_append, h2, List.drop_append, hdrop, List.nil_append]
      · intro b' hb'
        rw [h3 b' (fun e => hb' (List.mem_cons_of_mem _ e))]
        exact hgn b' (fun e => hb' (e ▸ List.mem_cons_self))
      · intro b'
        by_cases e : b' = b
        · subst e; exact ⟨ids.length, by rw [hfb, hids, List.drop_length]⟩
        · obtain ⟨j, hj⟩ := h4 b'
          refine ⟨j, ?_⟩
          rw [hj]
          unfold sch
          simp only
          rw [hgn b' e]
      · have := Nat.mod_le (k + 1) 256
        refine le_trans h5 ?_
        omega
      · intro b' hb'
        rw [List.take_succ_cons] at hb'
        rcases List.mem_cons.mp hb' with rfl | hb'
        · exact hfb
        · exact h7 b' hb'

theorem flatMap_drop_nil {f : Nat → List Nat} : ∀ (l : List Nat) (j i : Nat), i ≤ j → (∀ b ∈ l.take j, f b = []) →
    (l.drop i).flatMap f = l.flatMap f
  | [], _, _, _, _ => by simp
  | b :: l, 0, i, hi, _ => by
    have : i = 0 := by omega
    subst this; rfl
  | b :: l, j + 1, 0, _, _ => rfl
  | b :: l, j + 1, i + 1, hi, h => by
    rw [List.drop_succ_cons, List.flatMap_cons, h b (by simp), List.nil_append]
    exact flatMap_drop_nil l j i (by omega) (fun b' hb' => h b' (by simp [hb']))

/-- An idle phase executes the first `m` payments of the queue and removes them from it. -/
theorem idle_spec {c : Cfg} {s s' : St} {m : Nat} (hnd : s.ready.Nodup) (h : idle c s m = .ok s') :
    ∃ f k, s' = { ((queue s).take m).foldl (process c) s with
        sched := f
        ready := s.ready.drop k } ∧
      queue s' = (queue s).drop m ∧ (∀ b, b ∉ s.ready → f b = s.sched b) ∧
      (∀ b, ∃ j, sch s' b = (sch s b).drop j) ∧
      (∀ b ∈ s.ready, b ∉ s'.ready → sch s' b = []) := by
  simp only [idle, bind_ok, ensure_ok, pure_ok] at h
  obtain ⟨_, _, rfl⟩ := h
  obtain ⟨f, h1, h2, h3, h4, j, h5, h6, h7⟩ := idleLoop_spec c m s.ready s 0 0 hnd (Nat.zero_le _) (Or.inr rfl)
  rw [Nat.sub_zero] at h1 h2
  rw [h1]
  refine ⟨f, _, rfl, ?_, h3, h4, ?_⟩
  · unfold queue
    simp only
    rw [← h2]
    exact flatMap_drop_nil _ j _ (by omega) h7
  · intro b hb hb'
    simp only at hb'
    apply h7 b
    rw [← List.take_append_drop (idleLoop c m s.ready s 0 0).2 s.ready] at hb
    rcases List.mem_append.mp hb with hb | hb
    · exact (List.take_subset_take_left _ (by omega)) hb
    · exact absurd hb hb'

end Verif.Erc20Peg
