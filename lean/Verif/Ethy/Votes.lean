import Verif.Ethy.Sched

/-! # Votes and verdicts -/

namespace Verif.Ethy

/-- The notaries `keys` with vote `yes` on `id`, as seen in the log. -/
def Voted (log : List Ev) (id : Nat) (yes : Bool) (k : Key) : Prop := Ev.voted id k yes ∈ log

/-- Enough distinct notaries of `K` voted `yes` on `id`: at least `pct` percent of `n`. -/
def Majority (K : List Key) (n pct : Nat) (log : List Ev) (id : Nat) (yes : Bool) : Prop :=
  ∃ ks : List Key, ks.Nodup ∧ (∀ k ∈ ks, k ∈ K ∧ Ev.voted id k yes ∈ log) ∧ pct * n ≤ 100 * ks.length

theorem Majority.mono {K : List Key} {n pct : Nat} {log log' : List Ev} {id : Nat} {yes : Bool}
    (h : Majority K n pct log id yes) (hl : ∀ e ∈ log, e ∈ log') : Majority K n pct log' id yes := by
  obtain ⟨ks, h1, h2, h3⟩ := h
  exact ⟨ks, h1, fun k hk => ⟨(h2 k hk).1, hl _ (h2 k hk).2⟩, h3⟩

/-- Votes recorded with a fixed set of notaries. -/
structure VI (c : Cfg) (K : List Key) (n : Nat) (s : St) : Prop where
  keys : s.notaryKeys = K
  count : s.valCount = n
  votes : ∀ id, ∀ kv ∈ s.votes id, kv.1 ∈ K ∧ Ev.voted id kv.1 kv.2 ∈ s.log
  ver : ∀ id, Ev.verified id ∈ s.log → Majority K n c.thr s.log id true
  inv : ∀ id, Ev.invalid id ∈ s.log → Majority K n (100 - c.thr + 1) s.log id false

theorem VI.genesis {c : Cfg} {K : List Key} {n : Nat} {s : St} (h : Genesis s)
    (hk : s.notaryKeys = K) (hn : s.valCount = n) : VI c K n s := by
  refine ⟨hk, hn, ?_, ?_, ?_⟩
  · intro id kv hm; rw [h.votes] at hm; cases hm
  · intro id hm; rw [h.log] at hm; cases hm
  · intro id hm; rw [h.log] at hm; cases hm

/-- Only verdicts and votes matter. -/
theorem VI.frame {c : Cfg} {K : List Key} {n : Nat} {s s' : St} (h : VI c K n s) (ext : List Ev)
    (hk : s'.notaryKeys = s.notaryKeys) (hn : s'.valCount = s.valCount) (hv : s'.votes = s.votes)
    (hl : s'.log = ext ++ s.log) (h1 : ∀ id, Ev.verified id ∉ ext) (h2 : ∀ id, Ev.invalid id ∉ ext) :
    VI c K n s' := by
  have up : ∀ e ∈ s.log, e ∈ s'.log := fun e he => by rw [hl]; exact List.mem_append_right _ he
  refine ⟨hk.trans h.keys, hn.trans h.count, ?_, ?_, ?_⟩
  · intro id kv hm
    rw [hv] at hm
    exact ⟨(h.votes id kv hm).1, up _ (h.votes id kv hm).2⟩
  · intro id hm
    rw [hl] at hm
    rcases List.mem_append.mp hm with hm | hm
    · exact absurd hm (h1 id)
    · exact (h.ver id hm).mono up
  · intro id hm
    rw [hl] at hm
    rcases List.mem_append.mp hm with hm | hm
    · exact absurd hm (h2 id)
    · exact (h.inv id hm).mono up

theorem percent_le {p q t : Nat} (h : t ≤ percent p q) : t * q ≤ 100 * p := by
  unfold percent at h
  have hq : 0 < max q 1 := by omega
  have h1 := (Nat.le_div_iff_mul_le hq).mp h
  have h2 : t * q ≤ t * max q 1 := Nat.mul_le_mul_left _ (Nat.le_max_left _ _)
  have h3 : min p (max q 1) ≤ p := Nat.min_le_left _ _
  omega

theorem majority_of_count {K : List Key} {n pct : Nat} {log : List Ev} {id : Nat} {yes : Bool}
    {l : List (Key × Bool)} (hn : (l.map Prod.fst).Nodup)
    (hv : ∀ kv ∈ l, kv.1 ∈ K ∧ Ev.voted id kv.1 kv.2 ∈ log)
    (hp : pct ≤ percent (countVotes l yes) n) : Majority K n pct log id yes := by
  refine ⟨(l.filter (fun kv => kv.2 == yes)).map Prod.fst, ?_, ?_, ?_⟩
  · exact hn.sublist (List.filter_sublist.map Prod.fst)
  · intro k hk
    obtain ⟨kv, hkv, rfl⟩ := List.mem_map.mp hk
    obtain ⟨h1, h2⟩ := List.mem_filter.mp hkv
    have h2 : kv.2 = yes := by simpa using h2
    have := hv kv h1
    rw [h2] at this
    exact this
  · have := percent_le hp
    simpa [countVotes] using this

theorem withVote_VI {c : Cfg} {K : List Key} {n : Nat} {s : St} {id idx : Nat} {key : Key} {yes : Bool}
    (h : VI c K n s) (hk : s.notaryKeys[idx]? = some key) : VI c K n (withVote s id key yes) := by
  have up : ∀ e ∈ s.log, e ∈ (withVote s id key yes).log := fun e he => List.mem_cons_of_mem _ he
  have hkK : key ∈ K := by rw [← h.keys]; exact List.mem_of_getElem? hk
  refine ⟨h.keys, h.count, ?_, ?_, ?_⟩
  · intro i kv hm
    simp only [withVote] at hm
    by_cases hi : i = id
    · subst hi
      rw [upd_same] at hm
      rcases List.mem_append.mp hm with hm | hm
      · exact ⟨(h.votes i kv hm).1, up _ (h.votes i kv hm).2⟩
      · simp only [List.mem_cons, List.not_mem_nil, or_false] at hm
        subst hm
        exact ⟨hkK, List.mem_cons_self⟩
    · rw [upd_ne _ _ hi] at hm
      exact ⟨(h.votes i kv hm).1, up _ (h.votes i kv hm).2⟩
  · intro i hm
    rcases List.mem_cons.mp hm with hm | hm
    · cases hm
    · exact (h.ver i hm).mono up
  · intro i hm
    rcases List.mem_cons.mp hm with hm | hm
    · cases hm
    · exact (h.inv i hm).mono up

/-- A verdict changes votes, log and nothing else that matters here. -/
theorem verdict_VI {c : Cfg} {K : List Key} {n : Nat} {s s' : St} {id : Nat} (h : VI c K n s)
    (hk : s'.notaryKeys = s.notaryKeys) (hn : s'.valCount = s.valCount)
    (hv : s'.votes = upd s.votes id [])
    (hl : (s'.log = .verified id :: s.log ∧ Majority K n c.thr s.log id true) ∨
          (s'.log = .invalid id :: s.log ∧ Majority K n (100 - c.thr + 1) s.log id false) ∨
          s'.log = s.log) : VI c K n s' := by
  have up : ∀ e ∈ s.log, e ∈ s'.log := by
    intro e he
    rcases hl with ⟨e1, _⟩ | ⟨e1, _⟩ | e1 <;> rw [e1]
    · exact List.mem_cons_of_mem _ he
    · exact List.mem_cons_of_mem _ he
    · exact he
  refine ⟨hk.trans h.keys, hn.trans h.count, ?_, ?_, ?_⟩
  · intro i kv hm
    rw [hv] at hm
    by_cases hi : i = id
    · subst hi; rw [upd_same] at hm; cases hm
    · rw [upd_ne _ _ hi] at hm
      exact ⟨(h.votes i kv hm).1, up _ (h.votes i kv hm).2⟩
  · intro i hm
    rcases hl with ⟨e1, hm'⟩ | ⟨e1, _⟩ | e1
    · rw [e1] at hm
      rcases List.mem_cons.mp hm with hm | hm
      · cases hm; exact hm'.mono up
      · exact (h.ver i hm).mono up
    · rw [e1] at hm
      rcases List.mem_cons.mp hm with hm | hm
      · cases hm
      · exact (h.ver i hm).mono up
    · rw [e1] at hm; exact (h.ver i hm).mono up
  · intro i hm
    rcases hl with ⟨e1, _⟩ | ⟨e1, hm'⟩ | e1
    · rw [e1] at hm
      rcases List.mem_cons.mp hm with hm | hm
      · cases hm
      · exact (h.inv i hm).mono up
    · rw [e1] at hm
      rcases List.mem_cons.mp hm with hm | hm
      · cases hm; exact hm'.mono up
      · exact (h.inv i hm).mono up
    · rw [e1] at hm; exact (h.inv i hm).mono up

/-- The notaries do not change. -/
def NoRotation (op : Op) : Prop := ∀ ks n, op ≠ .setNotaries ks n

theorem VI.step {c : Cfg} {K : List Key} {n : Nat} {s s' : St} {op : Op} (h : VI c K n s) (hci : CI c s)
    (hop : NoRotation op) (hs : step c s op = .ok s') : VI c K n s' := by
  cases op with
  | submitEvent who id cl =>
    obtain ⟨_, _, rfl⟩ := doSubmitEvent_ok (submitEvent_ok hs).2.2
    exact h.frame [_] rfl rfl rfl rfl (by simp) (by simp)
  | submitMissing who id cl =>
    obtain ⟨_, _, rfl⟩ := doSubmitEvent_ok (submitMissing_ok hs).2.2
    exact h.frame [_] rfl rfl rfl rfl (by simp) (by simp)
  | challenge who id =>
    obtain ⟨_, _, _, _, rfl⟩ := submitChallenge_ok hs
    exact h.frame [_] rfl rfl rfl rfl (by simp) (by simp)
  | notarize idx id yes =>
    obtain ⟨key, hk, hf, hst, hcase⟩ := notarize_ok hs
    have hv := withVote_VI (id := id) (yes := yes) h hk
    have hc := withVote_CI (yes := yes) hci hst hf
    rw [h.count] at hcase
    rcases hcase with ⟨hp, hi⟩ | ⟨hp, hi⟩ | ⟨_, _, rfl⟩
    · have hm : Majority K n (100 - c.thr + 1) (withVote s id key yes).log id false :=
        majority_of_count (hc.nodup id) (hv.votes id) hp
      obtain ⟨_, ⟨_, rfl⟩ | ⟨ch, b, _, _, ⟨_, rfl⟩ | ⟨r, f1, h1, _, _, _, _, rfl⟩⟩⟩ := handleInvalid_ok hi <;>
        exact verdict_VI hv rfl rfl rfl (Or.inr (Or.inl ⟨rfl, hm⟩))
    · have hm : Majority K n c.thr (withVote s id key yes).log id true :=
        majority_of_count (hc.nodup id) (hv.votes id) hp
      obtain ⟨_, ⟨_, rfl⟩ | ⟨r, _, ⟨_, rfl⟩ | ⟨ch, b, _, _, rfl⟩⟩⟩ := handleValid_ok hi
      · exact verdict_VI hv rfl rfl rfl (Or.inr (Or.inr rfl))
      · exact verdict_VI hv rfl rfl rfl (Or.inl ⟨rfl, hm⟩)
      · exact verdict_VI hv rfl rfl rfl (Or.inl ⟨rfl, hm⟩)
    · exact hv
  | setRelayer who =>
    obtain ⟨_, rfl⟩ := setRelayer_ok hs; exact h.frame [] rfl rfl rfl rfl (by simp) (by simp)
  | depositBond who =>
    obtain ⟨_, _, rfl⟩ := depositBond_ok hs; exact h.frame [] rfl rfl rfl rfl (by simp) (by simp)
  | withdrawBond who =>
    obtain ⟨_, _, _, rfl⟩ := withdrawBond_ok hs; exact h.frame [] rfl rfl rfl rfl (by simp) (by simp)
  | setPeriod m =>
    simp only [Ethy.step, Except.ok.injEq] at hs; subst hs
    exact h.frame [] rfl rfl rfl rfl (by simp) (by simp)
  | removeMissing lo hi =>
    simp only [Ethy.step, Except.ok.injEq] at hs; subst hs
    exact h.frame [] rfl rfl rfl rfl (by simp) (by simp)
  | setNotaries keys m => exact absurd rfl (hop keys m)
  | fund who amt =>
    simp only [Ethy.step, Except.ok.injEq] at hs; subst hs
    exact h.frame [] rfl rfl rfl rfl (by simp) (by simp)
  | nextBlock =>
    simp only [Ethy.step, Except.ok.injEq] at hs; subst hs
    obtain ⟨pp, mm, e⟩ := onInitialize_eq c s
    rw [e]
    obtain ⟨ext, hl, hext⟩ := loop_log (s.validAt (s.now + 1)) (startLoop s)
    have hk : Kept (startLoop s).s (endLoop s).s := loop_kept (s.validAt (s.now + 1)) (startLoop s)
    refine h.frame ext hk.notaryKeys hk.valCount hk.votes hl ?_ ?_
    · intro id hm; obtain ⟨_, _, h1, _⟩ := hext _ hm; cases h1
    · intro id hm; obtain ⟨_, _, h1, _⟩ := hext _ hm; cases h1

theorem ReachP.vi {c : Cfg} {K : List Key} {n : Nat} {s : St}
    (h : ReachP c NoRotation (fun s => s.notaryKeys = K ∧ s.valCount = n) s) : VI c K n s := by
  induction h with
  | init hg hk => exact .genesis hg hk.1 hk.2
  | step hr hp hs ih => exact ih.step hr.ci hp hs

/-! ## Verdicts are final -/

/-- No verdict on an id after a `verified` one. The log is newest first. -/
def FinalLog (log : List Ev) : Prop :=
  log.Pairwise (fun later earlier => ∀ id, earlier = .verified id →
    later ≠ .invalid id ∧ later ≠ .verified id)

structure FI (s : St) : Prop where
  final : FinalLog s.log
  ver : ∀ id, Ev.verified id ∈ s.log → s.status id = some .provenValid ∨ deliveries id s.log ≠ []

theorem FinalLog.ext {ext log : List Ev} (h : FinalLog log) (h1 : ∀ id, Ev.invalid id ∉ ext)
    (h2 : ∀ id, Ev.verified id ∉ ext) : FinalLog (ext ++ log) := by
  refine List.pairwise_append.mpr ⟨?_, h, ?_⟩
  · refine List.Pairwise.imp_of_mem ?_ (List.pairwise_of_forall (R := fun _ _ => True) (by simp))
    intro a b ha _ _ id _
    exact ⟨fun e => h1 id (e ▸ ha), fun e => h2 id (e ▸ ha)⟩
  · intro a ha b _ id _
    exact ⟨fun e => h1 id (e ▸ ha), fun e => h2 id (e ▸ ha)⟩

/-- Steps that reach no verdict. -/
theorem FI.frame {s s' : St} (h : FI s) (ext : List Ev) (hl : s'.log = ext ++ s.log)
    (h1 : ∀ id, Ev.verified id ∉ ext) (h2 : ∀ id, Ev.invalid id ∉ ext)
    (hs : ∀ id, s.status id = some .provenValid → s'.status id = some .provenValid ∨
      deliveries id s'.log ≠ []) : FI s' := by
  refine ⟨by rw [hl]; exact h.final.ext h2 h1, ?_⟩
  intro id hm
  have hm' : Ev.verified id ∈ s.log := by
    rw [hl] at hm
    rcases List.mem_append.mp hm with hm | hm
    · exact absurd hm (h1 id)
    · exact hm
  rcases h.ver id hm' with h3 | h3
  · exact hs id h3
  · right
    obtain ⟨cl, t, hd⟩ := mem_deliveries.mp h3
    exact mem_deliveries.mpr ⟨cl, t, by rw [hl]; exact List.mem_append_right _ hd⟩

theorem deliveries_up {id : Nat} {log log' : List Ev} (h : deliveries id log ≠ [])
    (hl : ∀ e ∈ log, e ∈ log') : deliveries id log' ≠ [] := by
  obtain ⟨cl, t, hd⟩ := mem_deliveries.mp h
  exact mem_deliveries.mpr ⟨cl, t, hl _ hd⟩

theorem FI.step {c : Cfg} {s s' : St} {op : Op} (h : FI s) (hri : StRI s) (hci : CI c s)
    (hs : step c s op = .ok s') : FI s' := by
  have sub : ∀ {id cl}, doSubmitEvent c s id cl = .ok s' → FI s' := by
    intro id cl hd
    obtain ⟨hn, _, rfl⟩ := doSubmitEvent_ok hd
    refine h.frame [_] rfl (by simp) (by simp) ?_
    intro i hi
    left
    dsimp only
    have hne : i ≠ id := by
      rintro rfl
      have := (hci.claim i).mpr (by rw [hi]; rfl)
      rw [hn] at this; cases this
    rw [upd_ne _ _ hne]; exact hi
  cases op with
  | submitEvent who id cl => exact sub (submitEvent_ok hs).2.2
  | submitMissing who id cl => exact sub (submitMissing_ok hs).2.2
  | challenge who id =>
    obtain ⟨_, hp, _, _, rfl⟩ := submitChallenge_ok hs
    refine h.frame [_] rfl (by simp) (by simp) ?_
    intro i hi
    left
    dsimp only
    have hne : i ≠ id := by rintro rfl; rw [hp] at hi; cases hi
    rw [upd_ne _ _ hne]; exact hi
  | notarize idx id yes =>
    have hfr := notarize_frame hs
    obtain ⟨key, hk, hf, hst, hcase⟩ := notarize_ok hs
    have hv0 : FI (withVote s id key yes) := h.frame [_] rfl (by simp) (by simp) (fun i hi => Or.inl hi)
    have hnv : (s.claims id).isSome = true → Ev.verified id ∉ (withVote s id key yes).log := by
      intro hcs hm
      rcases hv0.ver id hm with h1 | h1
      · change s.status id = _ at h1; rw [hst] at h1; cases h1
      · have h1' : deliveries id s.log ≠ [] := by
          obtain ⟨cl, t, hd⟩ := mem_deliveries.mp h1
          rcases List.mem_cons.mp hd with hd | hd
          · cases hd
          · exact mem_deliveries.mpr ⟨cl, t, hd⟩
        have hcn := (hri.del id h1').2.2.2
        rw [hcn] at hcs; cases hcs
    rcases hcase with ⟨_, hi⟩ | ⟨_, hi⟩ | ⟨_, _, rfl⟩
    · have hnv := hnv (handleInvalid_ok hi).1
      have fin : FinalLog (.invalid id :: (withVote s id key yes).log) := by
        refine List.pairwise_cons.mpr ⟨?_, hv0.final⟩
        intro e he i hei
        refine ⟨?_, by simp⟩
        intro hinv
        cases hinv; subst hei; exact hnv he
      have keep : ∀ st, ∀ i, Ev.verified i ∈ (Ev.invalid id :: (withVote s id key yes).log) →
          upd s.status id st i = some .provenValid ∨
          deliveries i (Ev.invalid id :: (withVote s id key yes).log) ≠ [] := by
        intro st i hm
        rcases List.mem_cons.mp hm with hm | hm
        · cases hm
        have hne : i ≠ id := by rintro rfl; exact hnv hm
        rw [upd_ne _ _ hne]
        exact (hv0.ver i hm).imp (fun h => h) (fun h => deliveries_up h (fun e he => List.mem_cons_of_mem _ he))
      obtain ⟨_, ⟨hn, rfl⟩ | ⟨ch, b, _, _, ⟨_, rfl⟩ | ⟨r, f1, h1, _, _, _, _, rfl⟩⟩⟩ := handleInvalid_ok hi
      · have := (hci.chal id).mpr hst
        change s.challenger id = none at hn
        rw [hn] at this; cases this
      · exact ⟨fin, keep none⟩
      · exact ⟨fin, keep none⟩
    · have hnv := hnv (handleValid_ok hi).1
      have fin : FinalLog (.verified id :: (withVote s id key yes).log) := by
        refine List.pairwise_cons.mpr ⟨?_, hv0.final⟩
        intro e he i hei
        refine ⟨by simp, ?_⟩
        intro hinv
        cases hinv; subst hei; exact hnv he
      have keep : ∀ i, Ev.verified i ∈ (Ev.verified id :: (withVote s id key yes).log) →
          upd s.status id (some .provenValid) i = some .provenValid ∨
          deliveries i (Ev.verified id :: (withVote s id key yes).log) ≠ [] := by
        intro i hm
        by_cases hne : i = id
        · subst hne; left; rw [upd_same]
        · rcases List.mem_cons.mp hm with hm | hm
          · cases hm; exact absurd rfl hne
          rw [upd_ne _ _ hne]
          exact (hv0.ver i hm).imp (fun h => h) (fun h => deliveries_up h (fun e he => List.mem_cons_of_mem _ he))
      obtain ⟨_, ⟨_, rfl⟩ | ⟨r, _, ⟨_, rfl⟩ | ⟨ch, b, _, _, rfl⟩⟩⟩ := handleValid_ok hi
      · exact ⟨hv0.final, hv0.ver⟩
      · exact ⟨fin, keep⟩
      · exact ⟨fin, keep⟩
    · exact hv0
  | setRelayer who =>
    obtain ⟨_, rfl⟩ := setRelayer_ok hs; exact h.frame [] rfl (by simp) (by simp) (fun _ h => Or.inl h)
  | depositBond who =>
    obtain ⟨_, _, rfl⟩ := depositBond_ok hs; exact h.frame [] rfl (by simp) (by simp) (fun _ h => Or.inl h)
  | withdrawBond who =>
    obtain ⟨_, _, _, rfl⟩ := withdrawBond_ok hs
    exact h.frame [] rfl (by simp) (by simp) (fun _ h => Or.inl h)
  | setPeriod m =>
    simp only [Ethy.step, Except.ok.injEq] at hs; subst hs
    exact h.frame [] rfl (by simp) (by simp) (fun _ h => Or.inl h)
  | removeMissing lo hi =>
    simp only [Ethy.step, Except.ok.injEq] at hs; subst hs
    exact h.frame [] rfl (by simp) (by simp) (fun _ h => Or.inl h)
  | setNotaries keys m =>
    simp only [Ethy.step, Except.ok.injEq] at hs; subst hs
    exact h.frame [] rfl (by simp) (by simp) (fun _ h => Or.inl h)
  | fund who amt =>
    simp only [Ethy.step, Except.ok.injEq] at hs; subst hs
    exact h.frame [] rfl (by simp) (by simp) (fun _ h => Or.inl h)
  | nextBlock =>
    simp only [Ethy.step, Except.ok.injEq] at hs; subst hs
    obtain ⟨pp, mm, e⟩ := onInitialize_eq c s
    rw [e]
    obtain ⟨ext, hl, hext⟩ := loop_log (s.validAt (s.now + 1)) (startLoop s)
    refine h.frame ext hl ?_ ?_ ?_
    · intro id hm; obtain ⟨_, _, h1, _⟩ := hext _ hm; cases h1
    · intro id hm; obtain ⟨_, _, h1, _⟩ := hext _ hm; cases h1
    · intro id hi
      have hcs : (s.claims id).isSome := (hci.claim id).mpr (by rw [hi]; rfl)
      obtain ⟨cl, hcl⟩ := Option.isSome_iff_exists.mp hcs
      rcases loop_keep (l := s.validAt (s.now + 1)) (acc := startLoop s) hcl with ⟨_, g2, _⟩ | ⟨_, _, g3⟩
      · left; exact g2.trans hi
      · right; exact mem_deliveries.mpr ⟨cl, _, g3⟩

theorem ReachP.fi {c : Cfg} {P : Op → Prop} {G : St → Prop} (hmax : 0 < c.maxIds) {s : St}
    (h : ReachP c P G s) : FI s := by
  induction h with
  | init hg _ =>
    refine ⟨?_, ?_⟩
    · rw [hg.log]; exact List.Pairwise.nil
    · intro id hm; rw [hg.log] at hm; cases hm
  | step hr _ hs ih => exact ih.step (hr.ri hmax) hr.ci hs

end Verif.Ethy
