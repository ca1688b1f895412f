import Verif.Xrpl.Demo

/-!
# C222: resets of the settled transactions by root

`reset_settled_xrpl_tx_data` (pallet/xrpl-bridge/src/lib.rs:738-775) comes on top of the operations of the model.
-/

namespace Verif.Xrpl

/-! ## Model -/

/-- A transaction that root names: its hash, its ledger index (32 bits) and its data. -/
abbrev Old := Hash × Nat × Data

/-- lib.rs:763-771: the loop over the transactions; `try_append` fails if the list is full. -/
def restore (c : Cfg) : List Old → St → Except Err St
  | [], s => .ok s
  | t :: ts, s => do
    ensure ((s.settled t.2.1).length < c.ledgerLimit) "TooManyTransactionsPerLedger"
    restore c ts { s with
      details := upd s.details t.1 (some (t.2.1, t.2.2))
      settled := upd s.settled t.2.1 (s.settled t.2.1 ++ [t.1]) }

/-- lib.rs:738-775 `reset_settled_xrpl_tx_data` (root); transactional. -/
def reset (c : Cfg) (s : St) (highest window : Nat) (pruned : Option Nat) (txs : List Old) : Except Err St := do
  ensure (∀ p, pruned = some p → p ≤ highest - window) "InvalidHighestPrunedIndex"
  restore c txs { s with
    pruned := pruned.getD s.pruned
    highest := highest
    window := window }

/-- Everything that can happen, resets included. -/
inductive Op2 where
  | base (op : Op)
  | reset (highest window : Nat) (pruned : Option Nat) (txs : List Old)

/-- One step; see `step` and `reset`. -/
def step2 (c : Cfg) (s : St) : Op2 → Except Err St
  | .base op => step c s op
  | .reset h w p txs => reset c s h w p txs

/-- Histories with resets. -/
inductive Reach2 (c : Cfg) (G : St → Op2 → Prop) (g : St) : St → Prop
  | init : Genesis g → Reach2 c G g g
  | step {s s' : St} {op : Op2} : Reach2 c G g s → G s op → step2 c s op = .ok s' → Reach2 c G g s'

/-! ## Specification -/

/-- What root has to respect: it names transactions that are not known, each once, by indices of 32 bits; and all those that were
credited from ledgers that can be submitted for again are known afterwards. -/
def Careful (s : St) : Op2 → Prop
  | .base _ => True
  | .reset highest window _ txs => (∀ t ∈ txs, s.details t.1 = none ∧ t.2.1 < U32) ∧ (txs.map (fun t => t.1)).Nodup ∧
      ∀ x ∈ s.credited, highest - window ≤ x.2.1 → x.1 ∈ s.settled x.2.1 ∨ ∃ t ∈ txs, t.1 = x.1 ∧ t.2.1 = x.2.1

/-! ## Proofs -/

/-- One transaction is restored. -/
theorem DI.restore {P : Nat → List Hash} {h : Hash} {d : Hash → Option (Nat × Data)} {st : Nat → List Hash} {e : Nat}
    {cr : List (Hash × Nat × Data)} (hi : DI P d st e cr) (hn : d h = none) {i : Nat} (hj : i < U32) (x : Data) :
    DI P (upd d h (some (i, x))) (upd st i (st i ++ [h])) e cr := by
  have hP : ∀ b, h ∉ P b := fun b hb => hi.det b h hb hn
  have hS : ∀ i, h ∉ st i := fun i hb => by
    obtain ⟨_, _, h1, _⟩ := hi.known i h hb
    rw [hn] at h1
    cases h1
  have hdP : ∀ b g, g ∈ P b → upd d h (some (i, x)) g = d g := fun b g hg => upd_ne _ _ (by rintro rfl; exact hP b hg)
  have hmem : ∀ j g, g ∈ upd st i (st i ++ [h]) j → g ∈ st j ∨ (j = i ∧ g = h) := by
    intro j g hg
    rw [upd_apply] at hg
    split at hg
    · rename_i e
      subst e
      rcases List.mem_append.mp hg with h1 | h1
      · exact .inl h1
      · exact .inr ⟨rfl, List.mem_singleton.mp h1⟩
    · exact .inl hg
  refine ⟨?_, hi.nodup, hi.uniq, ?_, ?_, ?_, ?_, ?_, hi.once⟩
  · intro b g hg
    rw [hdP b g hg]
    exact hi.det b g hg
  · intro j g hg
    rcases hmem j g hg with h1 | ⟨rfl, rfl⟩
    · rw [upd_ne _ _ (by rintro rfl; exact hS j h1)]
      exact hi.known j g h1
    · exact ⟨j, x, upd_same _ _ _, Nat.mod_eq_of_lt hj⟩
  · intro b j g hg hm
    rcases hmem j g hm with h1 | ⟨_, rfl⟩
    · exact hi.disj b j g hg h1
    · exact hP b hg
  · intro j
    rw [upd_apply]
    split
    · rw [List.nodup_append]
      refine ⟨hi.snodup i, by simp, fun a ha c hc => ?_⟩
      rw [List.mem_singleton] at hc
      subst hc
      rintro rfl
      exact hS i ha
    · exact hi.snodup j
  · intro y hy
    refine (hi.old y hy).imp_left (fun h1 => ?_)
    rw [upd_apply]
    split
    · rename_i e
      rw [e] at h1
      exact List.mem_append_left _ h1
    · exact h1
  · intro b g hg j' d' hd'
    rw [hdP b g hg] at hd'
    exact hi.new b g hg j' d' hd'

/-- Nothing but the two maps changes, lists only grow, and all that is named is known and listed. -/
theorem restore_spec {c : Cfg} : ∀ {txs : List Old} {s s' : St}, restore c txs s = .ok s' →
    (∃ D S, s' = { s with details := D, settled := S }) ∧ (∀ h, s.details h ≠ none → s'.details h ≠ none) ∧
    (∀ i h, h ∈ s.settled i → h ∈ s'.settled i) ∧ (∀ t ∈ txs, s'.details t.1 ≠ none ∧ t.1 ∈ s'.settled t.2.1)
  | [], s, s', h => by
    cases h
    exact ⟨⟨s.details, s.settled, rfl⟩, fun _ h => h, fun _ _ h => h, (fun _ h => nomatch h)⟩
  | t :: ts, s, s', h => by
    simp only [restore, bind_ok, ensure_ok] at h
    obtain ⟨_, _, h⟩ := h
    obtain ⟨⟨D, S, e⟩, h1, h2, h3⟩ := restore_spec h
    have hd : upd s.details t.1 (some (t.2.1, t.2.2)) t.1 ≠ none := by rw [upd_same]; simp
    have hs : t.1 ∈ upd s.settled t.2.1 (s.settled t.2.1 ++ [t.1]) t.2.1 := by rw [upd_same]; simp
    refine ⟨⟨D, S, e⟩, fun g hg => h1 g ?_, fun i g hg => h2 i g ?_, fun u hu => ?_⟩
    · dsimp only
      rw [upd_apply]
      split
      · simp
      · exact hg
    · dsimp only
      rw [upd_apply]
      split
      · rename_i e
        rw [e] at hg
        exact List.mem_append_left _ hg
      · exact hg
    · rw [List.mem_cons] at hu
      rcases hu with rfl | hu
      · exact ⟨h1 u.1 hd, h2 u.2.1 u.1 hs⟩
      · exact h3 u hu

theorem restore_di {c : Cfg} {e : Nat} : ∀ {txs : List Old} {s s' : St}, restore c txs s = .ok s' →
    DI s.proc s.details s.settled e s.credited → (∀ t ∈ txs, s.details t.1 = none ∧ t.2.1 < U32) → (txs.map (fun t => t.1)).Nodup →
    DI s'.proc s'.details s'.settled e s'.credited
  | [], s, s', h, hi, _, _ => by
    cases h
    exact hi
  | t :: ts, s, s', h, hi, hc, hn => by
    simp only [restore, bind_ok, ensure_ok] at h
    obtain ⟨_, _, h⟩ := h
    rw [List.map_cons, List.nodup_cons] at hn
    have h0 := hc t (List.mem_cons_self ..)
    refine restore_di h (DI.restore hi h0.1 h0.2 t.2.2) (fun u hu => ?_) hn.2
    have h1 := hc u (List.mem_cons_of_mem _ hu)
    refine ⟨?_, h1.2⟩
    dsimp only
    rw [upd_ne _ _ (by
      intro e
      exact hn.1 (by rw [← e]; exact List.mem_map_of_mem hu))]
    exact h1.1

theorem reset_di {c : Cfg} {s s' : St} {highest window : Nat} {pruned : Option Nat} {txs : List Old} (hi : DIs s)
    (hc : Careful s (.reset highest window pruned txs)) (h : reset c s highest window pruned txs = .ok s') : DIs s' := by
  simp only [reset, bind_ok, ensure_ok] at h
  obtain ⟨_, _, h⟩ := h
  have hr := restore_di (e := windowEnd s) h hi hc.1 hc.2.1
  obtain ⟨⟨D, S, e⟩, _, h2, h3⟩ := restore_spec h
  have hw : windowEnd s' = highest - window := by rw [e]; rfl
  have hcr : s'.credited = s.credited := by rw [e]
  unfold DIs
  rw [hw]
  refine { hr with old := fun x hx => ?_ }
  rw [hcr] at hx
  by_cases hlt : x.2.1 < highest - window
  · exact .inr hlt
  · rcases hc.2.2 x hx (by omega) with h4 | ⟨t, ht, e1, e2⟩
    · exact .inl (h2 _ _ h4)
    · have := (h3 t ht).2
      rw [e1, e2] at this
      exact .inl this

theorem Reach2.di {c : Cfg} {G : St → Op2 → Prop} (hG : ∀ s op, G s op → Careful s op) {g s : St} (h : Reach2 c G g s) : DIs s := by
  induction h with
  | init hg => exact (Reach.init (c := c) (G := Any) hg).di
  | step _ hg hs ih =>
    rename_i op _
    cases op with
    | base op => exact step_di ih hs
    | reset a b p txs => exact reset_di ih (hG _ _ hg) hs

/-! ## C222 -/

/-- C222, partial: if root, when it resets, names every credited transaction of the ledgers that can be submitted for again and is not
known any more, no transaction is credited twice in any history. Missing: `C222_wider_refuted`, the call does not check this. -/
theorem C222_once_partial {c : Cfg} {G : St → Op2 → Prop} (hG : ∀ s op, G s op → Careful s op) {g s : St} (h : Reach2 c G g s) :
    (s.credited.map (fun x => (x.1, x.2.1))).Nodup := (h.di hG).once

/-- What root names cannot be submitted after the reset, and neither can what was known before; nothing is credited by the reset, and
the deposits that wait still do. -/
theorem C222_restored {c : Cfg} {s s' : St} {highest window : Nat} {pruned : Option Nat} {txs : List Old}
    (h : step2 c s (.reset highest window pruned txs) = .ok s') :
    (∀ h, (s.details h ≠ none ∨ ∃ t ∈ txs, t.1 = h) → ∀ who i d, (submit c s' who i h d).isOk = false) ∧
      (∀ who i h d, (submit c s' who i h d).isOk = true → highest - window ≤ i % U32) ∧
      s'.credited = s.credited ∧ s'.ledger = s.ledger ∧ s'.proc = s.proc ∧ s'.highest = highest ∧ s'.window = window ∧
      s'.pruned = pruned.getD s.pruned ∧ (∀ p, pruned = some p → p ≤ highest - window) := by
  simp only [step2, reset, bind_ok, ensure_ok] at h
  obtain ⟨_, hp, h⟩ := h
  obtain ⟨⟨D, S, e⟩, h1, _, h3⟩ := restore_spec h
  refine ⟨fun g hg who i d => ?_, fun who i g d hs => ?_, by rw [e], by rw [e], by rw [e], by rw [e], by rw [e], by rw [e], hp⟩
  · have hk : s'.details g ≠ none := by
      rcases hg with hg | ⟨t, ht, rfl⟩
      · exact h1 g hg
      · exact (h3 t ht).1
    cases hs : submit c s' who i g d with
    | error _ => rfl
    | ok s2 => exact absurd (C39_replay hs).1 hk
  · cases hs' : submit c s' who i g d with
    | error _ =>
      rw [hs'] at hs
      cases hs
    | ok s2 =>
      have := (C39_replay hs').2.1
      rw [e] at this
      exact this

/-- Run operations, ignoring failing ones. -/
def exec2 (c : Cfg) (s : St) : List Op2 → St
  | [] => s
  | op :: ops => exec2 c (match step2 c s op with
    | .ok s1 => s1
    | .error _ => s) ops

theorem exec2_reach {c : Cfg} {g : St} : ∀ (ops : List Op2) {s : St}, Reach2 c (fun _ _ => True) g s →
    Reach2 c (fun _ _ => True) g (exec2 c s ops)
  | [], _, h => h
  | op :: ops, s, h => by
    unfold exec2
    cases hs : step2 c s op with
    | error _ => exact exec2_reach ops h
    | ok s1 => exact exec2_reach ops (.step h trivial hs)

/-- A deposit of ledger 100 is credited and, ten ledgers later, forgotten. -/
def forgotten : List Op2 := [.base (.submit 8 100 11 (.payment 50 7)), .base (.block [] [] yes), .base (.block [] [] yes),
  .base (.submit 8 120 21 (.payment 1 7)), .base (.block [] [] yes), .base (.block [] [] yes), .base (.prune 100)]

/-- C222 is false of the call: root widens the window to a hundred ledgers, without naming transactions; the relayer submits the deposit
again, and it is credited again. -/
theorem C222_wider_refuted : ∃ s, Reach2 cfg0 (fun _ _ => True) g0 s ∧
    s.credited = [(11, 100, .payment 50 7), (21, 120, .payment 1 7), (11, 100, .payment 50 7)] :=
  ⟨exec2 cfg0 g0 (forgotten ++ [.reset 120 100 none [], .base (.submit 8 100 11 (.payment 50 7)), .base (.block [] [] yes),
    .base (.block [] [] yes)]), exec2_reach _ (.init g0_genesis), by decide +kernel⟩

/-- A careful reset: it names that deposit. -/
example : (reset cfg0 (exec2 cfg0 g0 forgotten) 120 100 (some 20) [(11, 100, .payment 50 7)]).isOk = true ∧
    Careful (exec2 cfg0 g0 forgotten) (.reset 120 100 (some 20) [(11, 100, .payment 50 7)]) := by
  unfold Careful
  decide +kernel

end Verif.Xrpl
