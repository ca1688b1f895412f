import Verif.Ethy.Demo

/-!
# C239: the challenge period root sets takes effect and stays; relayers are named by root
-/

namespace Verif.Ethy

/-- Root's word on the challenge period. -/
def said (k : Nat) : Op → Nat
  | .setPeriod n => n
  | _ => k

/-- The period stays, and the relayer stays or goes. -/
def Stays (s s' : St) : Prop := s'.period = s.period ∧ (s'.relayer = s.relayer ∨ s'.relayer = none)

theorem Stays.refl (s : St) : Stays s s := ⟨rfl, .inl rfl⟩

theorem Stays.trans {a b c : St} (h : Stays a b) (k : Stays b c) : Stays a c := by
  refine ⟨k.1.trans h.1, ?_⟩
  rcases k.2 with e | e
  · rw [e]
    exact h.2
  · exact .inr e

theorem Stays.congr {s s' t : St} (h : Stays s s') (h1 : t.period = s'.period) (h2 : t.relayer = s'.relayer) : Stays s t :=
  h.trans ⟨h1, .inl h2⟩

theorem doSubmit_stays {c : Cfg} {s s' : St} {id cl : Nat} (h : doSubmitEvent c s id cl = .ok s') : Stays s s' := by
  simp only [doSubmitEvent, bind_ok, pure_ok] at h
  obtain ⟨_, _, _, _, h⟩ := h
  subst h
  exact Stays.refl _

theorem payHold_stays {s s' : St} {who dst : Acct} {amt : Nat} (h : payHold s who amt dst = .ok s') : Stays s s' := by
  simp only [payHold, bind_ok, pure_ok] at h
  obtain ⟨_, _, h⟩ := h
  subst h
  exact Stays.refl _

theorem placeHold_stays {s s' : St} {who : Acct} {amt : Nat} (h : placeHold s who amt = .ok s') : Stays s s' := by
  simp only [placeHold, bind_ok, pure_ok] at h
  obtain ⟨_, _, h⟩ := h
  subst h
  exact Stays.refl _

theorem clearVotes_stays {s s' : St} {id : Nat} (h : clearVotes s id = .ok s') : Stays s s' := by
  simp only [clearVotes, bind_ok, pure_ok] at h
  obtain ⟨_, _, h⟩ := h
  subst h
  exact Stays.refl _

theorem slash_stays {s s' : St} {who : Acct} (h : slashRelayer s who = .ok s') : Stays s s' := by
  unfold slashRelayer at h
  split at h
  · simp only [bind_ok, pure_ok] at h
    obtain ⟨s1, h1, h⟩ := h
    subst h
    have := payHold_stays h1
    exact ⟨this.1, .inr rfl⟩
  · cases h
    exact Stays.refl _

theorem invalid_stays {s s' : St} {id : Nat} (h : handleInvalidClaim s id = .ok s') : Stays s s' := by
  simp only [handleInvalidClaim, bind_ok] at h
  obtain ⟨s0, h0, _, _, h⟩ := h
  have k0 := clearVotes_stays h0
  split at h
  · simp only [bind_ok, pure_ok] at h
    obtain ⟨s2, h2, s3, h3, h⟩ := h
    subst h
    have k2 : Stays s0 s2 := ⟨(payHold_stays h2).1, (payHold_stays h2).2⟩
    exact (k0.trans (k2.trans (slash_stays h3))).congr rfl rfl
  · cases h
    exact k0.congr rfl rfl

theorem valid_stays {s s' : St} {id : Nat} (h : handleValidClaim s id = .ok s') : Stays s s' := by
  simp only [handleValidClaim, bind_ok] at h
  obtain ⟨s0, h0, _, _, h⟩ := h
  have k0 := clearVotes_stays h0
  split at h
  · simp only [bind_ok, pure_ok] at h
    obtain ⟨s1, h1, h⟩ := h
    subst h
    have k1 : Stays s0 s1 := by
      split at h1
      · exact ⟨(payHold_stays h1).1, (payHold_stays h1).2⟩
      · cases h1
        exact Stays.refl _
    exact (k0.trans k1).congr rfl rfl
  · cases h
    exact k0

theorem processOne_stays (a : Loop) (id : Nat) : Stays a.s (processOne a id).s := by
  have hd : Stays a.s (deliver a.s id) := by
    unfold deliver
    split <;> exact Stays.refl _
  unfold processOne
  dsimp only
  split
  · exact Stays.refl _
  · split <;> exact hd.congr rfl rfl

theorem fold_stays : ∀ (l : List Nat) (a : Loop), Stays a.s (l.foldl processOne a).s
  | [], _ => Stays.refl _
  | id :: l, a => (processOne_stays a id).trans (fold_stays l _)

theorem onInit_stays (c : Cfg) (s : St) : Stays s (onInitialize c s) := by
  unfold onInitialize
  dsimp only
  have h := fold_stays (s.validAt (s.now + 1))
    ⟨{ s with now := s.now + 1, validAt := upd s.validAt (s.now + 1) [] }, s.processed, false⟩
  have h1 : Stays s (List.foldl processOne
      ⟨{ s with now := s.now + 1, validAt := upd s.validAt (s.now + 1) [] }, s.processed, false⟩ (s.validAt (s.now + 1))).s :=
    (Stays.refl s).trans h
  split
  · exact h1.congr rfl rfl
  · exact h1

/-- An operation other than root's. -/
theorem step_stays {c : Cfg} {s s' : St} {op : Op} (h : step c s op = .ok s') (h1 : ∀ n, op ≠ .setPeriod n)
    (h2 : ∀ r, op ≠ .setRelayer r) : Stays s s' := by
  cases op with
  | submitEvent who id cl =>
    simp only [step, submitEvent, bind_ok] at h
    obtain ⟨_, _, _, _, h⟩ := h
    exact doSubmit_stays h
  | submitMissing who id cl =>
    simp only [step, submitMissingEvent, bind_ok] at h
    obtain ⟨_, _, _, _, h⟩ := h
    exact doSubmit_stays h
  | challenge who id =>
    simp only [step, submitChallenge, bind_ok, pure_ok] at h
    obtain ⟨_, _, _, _, s1, k, _, _, h⟩ := h
    subst h
    exact (placeHold_stays k).congr rfl rfl
  | notarize idx id yes =>
    simp only [step, notarize, bind_ok] at h
    obtain ⟨_, _, _, _, _, _, h⟩ := h
    unfold decideClaim at h
    dsimp only at h
    split at h
    · exact ⟨(invalid_stays h).1, (invalid_stays h).2⟩
    · split at h
      · exact ⟨(valid_stays h).1, (valid_stays h).2⟩
      · cases h
        exact Stays.refl _
  | setRelayer who => exact absurd rfl (h2 who)
  | depositBond who =>
    simp only [step, depositBond, bind_ok, pure_ok] at h
    obtain ⟨_, _, s1, k, h⟩ := h
    subst h
    exact (placeHold_stays k).congr rfl rfl
  | withdrawBond who =>
    simp only [step, withdrawBond, bind_ok, pure_ok] at h
    obtain ⟨_, _, _, _, s1, k, h⟩ := h
    subst h
    exact (payHold_stays k).congr rfl rfl
  | setPeriod n => exact absurd rfl (h1 n)
  | removeMissing lo hi =>
    cases h
    exact Stays.refl _
  | setNotaries keys n =>
    cases h
    exact Stays.refl _
  | fund who amt =>
    cases h
    exact Stays.refl _
  | nextBlock =>
    cases h
    exact onInit_stays c s

theorem named_ok {c : Cfg} {s s' : St} {r : Acct} (h : step c s (.setRelayer r) = .ok s') :
    s' = { s with relayer := some r } := by
  simp only [step, setRelayer, bind_ok, pure_ok] at h
  obtain ⟨_, _, h⟩ := h
  exact h.symm

/-- **C239 (Ethereum bridge).** After any history, failing calls included, the challenge period is the one root set
last. -/
theorem C239_ethy (c : Cfg) : ∀ (ops : List Op) (s : St), (exec c s ops).period = ops.foldl said s.period
  | [], _ => rfl
  | op :: ops, s => by
    unfold exec
    rw [C239_ethy c ops, List.foldl_cons]
    congr 1
    cases op with
    | setPeriod n => rfl
    | setRelayer r =>
      split
      · rename_i h
        rw [named_ok h]
        rfl
      · rfl
    | _ =>
      split
      · rename_i h
        exact (step_stays h (fun _ e => nomatch e) (fun _ e => nomatch e)).1
      · rfl

/-- **C239 (Ethereum bridge).** An event submitted after it is due when that period is over. -/
theorem C239_ethy_due {c : Cfg} {s s' : St} {ops : List Op} {who : Acct} {id cl : Nat}
    (h : step c (exec c s ops) (.submitEvent who id cl) = .ok s') :
    id ∈ s'.validAt ((exec c s ops).now + ops.foldl said s.period) := by
  rw [← C239_ethy c]
  simp only [step, submitEvent, doSubmitEvent, bind_ok, pure_ok] at h
  obtain ⟨_, _, _, _, _, _, _, _, h⟩ := h
  subst h
  dsimp only
  rw [upd_same]
  exact List.mem_append_right _ (List.mem_singleton.mpr rfl)

/-- **C239 (Ethereum bridge).** Whoever submits events was named by root, or was the relayer at the start. -/
theorem C239_ethy_relayer (c : Cfg) : ∀ (ops : List Op) (s : St) (r : Acct), (exec c s ops).relayer = some r →
    .setRelayer r ∈ ops ∨ s.relayer = some r
  | [], _, _, h => .inr h
  | op :: ops, s, r, h => by
    unfold exec at h
    rcases C239_ethy_relayer c ops _ r h with k | k
    · exact .inl (List.mem_cons_of_mem _ k)
    · split at k
      · rename_i hs
        by_cases e1 : ∃ n, op = .setPeriod n
        · obtain ⟨n, rfl⟩ := e1
          cases hs
          exact .inr k
        · by_cases e2 : ∃ q, op = .setRelayer q
          · obtain ⟨q, rfl⟩ := e2
            rw [named_ok hs] at k
            cases k
            exact .inl List.mem_cons_self
          · have := step_stays hs (fun n e => e1 ⟨n, e⟩) (fun q e => e2 ⟨q, e⟩)
            rcases this.2 with e | e
            · rw [e] at k
              exact .inr k
            · rw [e] at k
              cases k
      · exact .inr k

/-- **C239 (Ethereum bridge).** Once root has named a relayer who has paid their bond, they may submit events until root
names another or they are slashed: an operation that ends it is root's, or leaves no relayer at all. -/
theorem C239_ethy_keeps {c : Cfg} {s s' : St} {op : Op} (h : step c s op = .ok s') (hn : s'.relayer ≠ s.relayer) :
    (∃ r, op = .setRelayer r ∧ s'.relayer = some r ∧ c.relayerBond ≤ s.bond r) ∨
      (s'.relayer = none ∧ ∃ idx id yes, op = .notarize idx id yes) := by
  cases op with
  | setRelayer r =>
    refine .inl ⟨r, rfl, ?_, ?_⟩
    · rw [named_ok h]
    · simp only [step, setRelayer, bind_ok, ensure_ok] at h
      obtain ⟨_, k, _⟩ := h
      exact k
  | notarize idx id yes =>
    rcases (step_stays h (fun _ e => nomatch e) (fun _ e => nomatch e)).2 with e | e
    · exact absurd e hn
    · exact .inr ⟨e, idx, id, yes, rfl⟩
  | setPeriod n =>
    cases h
    exact absurd rfl hn
  | submitEvent who id cl =>
    simp only [step, submitEvent, doSubmitEvent, bind_ok, pure_ok] at h
    obtain ⟨_, _, _, _, _, _, _, _, h⟩ := h
    subst h
    exact absurd rfl hn
  | submitMissing who id cl =>
    simp only [step, submitMissingEvent, doSubmitEvent, bind_ok, pure_ok] at h
    obtain ⟨_, _, _, _, _, _, _, _, h⟩ := h
    subst h
    exact absurd rfl hn
  | challenge who id =>
    simp only [step, submitChallenge, placeHold, bind_ok, pure_ok] at h
    obtain ⟨_, _, _, _, s1, ⟨_, _, k⟩, _, _, h⟩ := h
    subst h k
    exact absurd rfl hn
  | depositBond who =>
    simp only [step, depositBond, placeHold, bind_ok, pure_ok] at h
    obtain ⟨_, _, s1, ⟨_, _, k⟩, h⟩ := h
    subst h k
    exact absurd rfl hn
  | withdrawBond who =>
    simp only [step, withdrawBond, payHold, bind_ok, pure_ok] at h
    obtain ⟨_, _, _, _, s1, ⟨_, _, k⟩, h⟩ := h
    subst h k
    exact absurd rfl hn
  | removeMissing lo hi =>
    cases h
    exact absurd rfl hn
  | setNotaries keys n =>
    cases h
    exact absurd rfl hn
  | fund who amt =>
    cases h
    exact absurd rfl hn
  | nextBlock =>
    cases h
    refine absurd ?_ hn
    have : ∀ (l : List Nat) (a : Loop), (l.foldl processOne a).s.relayer = a.s.relayer := by
      intro l
      induction l with
      | nil => intro a; rfl
      | cons id l ih =>
        intro a
        refine (ih _).trans ?_
        unfold processOne deliver
        dsimp only
        split
        · rfl
        · split <;> split <;> rfl
    unfold onInitialize
    dsimp only
    split <;> exact this _ _

/-- The period is set, and set again after a challenge. -/
def periodOps : List Op := [.setPeriod 20, .depositBond 1, .setRelayer 1, .submitEvent 1 5 100, .challenge 2 5, .setPeriod 30]

example : periodOps.foldl said g0.period = 30 := by decide +kernel
example : (step cfg0 (exec cfg0 g0 periodOps) (.submitEvent 1 6 101)).isOk = true := by decide +kernel
example := C239_ethy_relayer cfg0 periodOps g0 1 (by decide +kernel)
-- the relayer is slashed by the second vote
example : (exec cfg0 g0 opsChallenge).relayer = some 1 ∧ (exec cfg0 g0 opsInvalid).relayer = none := by decide +kernel

end Verif.Ethy
