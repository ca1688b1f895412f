import Verif.Notary.Data
import Verif.Ethy.Votes

/-! # What the votes of honest workers guarantee -/

namespace Verif.Notary

open Abi

/-- When a claim is found valid. -/
theorem valid_iff {c : Cfg} {rpc : Rpc} {id : Nat} {cl : Claim} : tryNotarize c rpc id cl = .valid ↔
    ∃ r l, rpc.receipt cl.txHash = .ok (some r) ∧ r.status.getD 0 ≠ 0 ∧ r.to_ = some cl.source ∧
      findLog c cl.txHash r = some l ∧ l.data = fourFields id cl ∧ l.address = c.contract ∧
      ∃ b, rpc.block none = .ok (some b) ∧ c.confirmations ≤ b.number.getD 0 - r.block := by
  constructor
  · intro h
    unfold tryNotarize at h
    split at h
    · cases h
    · cases h
    · rename_i r hr
      unfold checkReceipt at h
      split at h
      · cases h
      · rename_i hst
        split at h
        · cases h
        · rename_i hto
          split at h
          · cases h
          · rename_i l hl
            split at h
            · cases h
            · rename_i hd
              split at h
              · cases h
              · rename_i ha
                unfold confirmed at h
                split at h
                · cases h
                · cases h
                · rename_i b hb
                  split at h
                  · cases h
                  · rename_i hc
                    exact ⟨r, l, hr, hst, not_not.mp hto, hl, not_not.mp hd, not_not.mp ha, b, hb, by omega⟩
  · rintro ⟨r, l, hr, hst, hto, hl, hd, ha, b, hb, hc⟩
    unfold tryNotarize
    rw [hr]
    simp only [checkReceipt]
    rw [if_neg hst, if_neg (not_not.mpr hto), hl]
    dsimp only
    rw [four_eq] at hd
    rw [if_neg (not_not.mpr hd), if_neg (not_not.mpr ha)]
    unfold confirmed
    rw [hb]
    dsimp only
    rw [if_neg (by omega)]

theorem findLog_some {c : Cfg} {tx : Nat} {r : Receipt} {l : Log} (h : findLog c tx r = some l) :
    l ∈ r.logs ∧ l.txHash = some tx ∧ c.selector ∈ l.topics := by
  unfold findLog at h
  have h1 := List.mem_of_find?_eq_some h
  have h2 := List.find?_some h
  simp only [Bool.and_eq_true, decide_eq_true_eq, List.contains_iff_mem] at h2
  exact ⟨h1, h2.1, h2.2⟩

theorem getD_ne {st : Option Nat} (h : st.getD 0 ≠ 0) : ∃ n, st = some n ∧ n ≠ 0 := by
  cases st with
  | none => exact absurd rfl h
  | some n => exact ⟨n, rfl, h⟩

/-- A claim found valid is shown by Ethereum. -/
theorem valid_shows {c : Cfg} {rpc : Rpc} {id : Nat} {cl : Claim} (h : tryNotarize c rpc id cl = .valid) :
    Shows c rpc id cl := by
  obtain ⟨r, l, hr, hst, hto, hl, hd, ha, b, hb, hc⟩ := valid_iff.mp h
  obtain ⟨h1, h2, h3⟩ := findLog_some hl
  refine ⟨r, l, ⟨hr, getD_ne hst, hto, h1, h2, h3, ha, b, hb, ?_⟩, hd⟩
  intro hp
  cases hn : b.number with
  | none => rw [hn] at hc; simp only [Option.getD_none] at hc; omega
  | some n => rw [hn] at hc; simp only [Option.getD_some] at hc; exact ⟨n, rfl, by omega⟩

theorem activeKey_some {notaries : List Nat} : ∀ {keys : List Nat} {k i : Nat}, activeKey notaries keys = some (k, i) →
    k ∈ keys ∧ notaries[i]? = some k
  | [], _, _, h => by cases h
  | x :: xs, k, i, h => by
    unfold activeKey at h
    split at h
    · rename_i j hj
      cases h
      obtain ⟨hlt, h1, _⟩ := List.findIdx?_eq_some_iff_getElem.mp hj
      refine ⟨List.mem_cons_self, ?_⟩
      rw [List.getElem?_eq_getElem hlt]
      simpa using h1
    · obtain ⟨h1, h2⟩ := activeKey_some h
      exact ⟨List.mem_cons_of_mem _ h1, h2⟩

/-- What a worker sends. -/
theorem worker_mem {c : Cfg} {ec : Ethy.Cfg} {claimOf : Nat → Claim} {paused : Bool} {rpc : Rpc} {s : Ethy.St}
    {keys : List Nat} {v : Nat × Nat × Verdict} (h : v ∈ worker c ec claimOf paused rpc s keys) :
    ∃ key x, key ∈ keys ∧ s.notaryKeys[v.1]? = some key ∧ s.challenges.head? = some v.2.1 ∧ s.claims v.2.1 = some x ∧
      (∀ kv ∈ s.votes v.2.1, kv.1 ≠ key) ∧ v.2.2 = tryNotarize c rpc v.2.1 (claimOf x) := by
  unfold worker at h
  split at h
  · cases h
  · rename_i key idx hk
    split at h
    · cases h
    · unfold eventVotes at h
      split at h
      · cases h
      · obtain ⟨id, hid, hv⟩ := List.mem_flatMap.mp h
        unfold voteOn at hv
        split at hv
        · cases hv
        · rename_i x hx
          split at hv
          · cases hv
          · rename_i hn
            simp only [List.mem_cons, List.not_mem_nil, or_false] at hv
            subst hv
            obtain ⟨h1, h2⟩ := activeKey_some hk
            refine ⟨key, x, h1, h2, ?_, hx, ?_, rfl⟩
            · cases hc : s.challenges with
              | nil => rw [hc] at hid; cases hid
              | cons y ys =>
                rw [hc] at hid
                simp only [List.take_succ_cons, List.take_zero, List.mem_cons, List.not_mem_nil, or_false] at hid
                rw [hid]; rfl
            · intro kv hkv e
              apply hn
              exact List.any_eq_true.mpr ⟨kv, hkv, by simpa using e⟩

/-! ## Histories -/

/-- Some provider shows the claim. -/
def Shown (c : Cfg) (claimOf : Nat → Claim) (prov : Rpc → Prop) (id x : Nat) : Prop :=
  ∃ rpc, prov rpc ∧ Shows c rpc id (claimOf x)

structure HI (c : Cfg) (claimOf : Nat → Claim) (honest : Nat → Prop) (prov : Rpc → Prop) (s : Ethy.St) : Prop where
  votes : ∀ id k, (k, true) ∈ s.votes id → honest k → ∃ x, s.claims id = some x ∧ Shown c claimOf prov id x
  valid : ∀ id, s.status id = some .provenValid → ∃ x, s.claims id = some x ∧ Shown c claimOf prov id x
  open_ : ∀ id, s.status id = some .pending → disputed id s.log = false
  done : ∀ l1 l2 id x t, s.log = l1 ++ Ethy.Ev.delivered id x t :: l2 → disputed id l2 = true → Shown c claimOf prov id x

/-- Events that neither submit, challenge nor deliver. -/
def Neutral (e : Ethy.Ev) : Prop :=
  (∀ i w, e ≠ .challenged i w) ∧ (∀ i x a p, e ≠ .submitted i x a p) ∧ ∀ i x t, e ≠ .delivered i x t

theorem disputed_append {id : Nat} {ext log : List Ethy.Ev} (h : ∀ e ∈ ext, (∀ i w, e ≠ .challenged i w) ∧
    ∀ i x a p, e ≠ .submitted i x a p) : disputed id (ext ++ log) = disputed id log := by
  induction ext with
  | nil => rfl
  | cons e es ih =>
    have ih := ih (fun e' he => h e' (List.mem_cons_of_mem _ he))
    have h1 := h e List.mem_cons_self
    cases e with
    | challenged i w => exact absurd rfl (h1.1 i w)
    | submitted i x a p => exact absurd rfl (h1.2 i x a p)
    | _ => exact ih

/-- The deliveries after adding entries that deliver nothing are the old ones. -/
theorem done_ext {ext log : List Ethy.Ev} (h : ∀ e ∈ ext, ∀ i x t, e ≠ .delivered i x t) {P : Nat → Nat → Prop}
    (hd : ∀ l1 l2 id x t, log = l1 ++ Ethy.Ev.delivered id x t :: l2 → disputed id l2 = true → P id x) :
    ∀ l1 l2 id x t, ext ++ log = l1 ++ Ethy.Ev.delivered id x t :: l2 → disputed id l2 = true → P id x := by
  induction ext with
  | nil => exact hd
  | cons e es ih =>
    have ih := ih (fun e' he => h e' (List.mem_cons_of_mem _ he))
    intro l1 l2 id x t hl hq
    cases l1 with
    | nil =>
      rw [List.cons_append, List.nil_append] at hl
      exact absurd (List.cons.inj hl).1 (h e List.mem_cons_self id x t)
    | cons a l1 =>
      rw [List.cons_append, List.cons_append] at hl
      exact ih l1 l2 id x t (List.cons.inj hl).2 hq

section
variable {c : Cfg} {ec : Ethy.Cfg} {claimOf : Nat → Claim} {honest : Nat → Prop} {prov : Rpc → Prop} {s s' : Ethy.St}

theorem HI.frame (h : HI c claimOf honest prov s) (hv : s'.votes = s.votes) (hc : s'.claims = s.claims)
    (hs : s'.status = s.status) (hl : s'.log = s.log) : HI c claimOf honest prov s' := by
  refine ⟨?_, ?_, ?_, ?_⟩
  · rw [hv, hc]; exact h.votes
  · rw [hs, hc]; exact h.valid
  · rw [hs, hl]; exact h.open_
  · rw [hl]; exact h.done

theorem HI.submit (h : HI c claimOf honest prov s) (hci : Ethy.CI ec s) {id x : Nat}
    (hs : Ethy.doSubmitEvent ec s id x = .ok s') : HI c claimOf honest prov s' := by
  obtain ⟨hn, _, rfl⟩ := Ethy.doSubmitEvent_ok hs
  have hst : s.status id = none := by
    have h0 := (hci.claim id).not
    rw [hn] at h0
    simpa using h0
  refine ⟨?_, ?_, ?_, ?_⟩
  · intro i k hk ho
    by_cases e : i = id
    · subst e
      obtain ⟨y, hy, _⟩ := h.votes i k hk ho
      rw [hn] at hy; cases hy
    · show ∃ y, upd s.claims id (some x) i = some y ∧ _
      rw [upd_ne _ _ e]; exact h.votes i k hk ho
  · intro i hi
    by_cases e : i = id
    · subst e
      have hi : upd s.status i (some .pending) i = some .provenValid := hi
      rw [upd_same] at hi; cases hi
    · have hi : upd s.status id (some .pending) i = some .provenValid := hi
      rw [upd_ne _ _ e] at hi
      show ∃ y, upd s.claims id (some x) i = some y ∧ _
      rw [upd_ne _ _ e]; exact h.valid i hi
  · intro i hi
    show disputed i (.submitted id x s.now (s.now + s.period) :: s.log) = false
    by_cases e : i = id
    · subst e; simp [disputed]
    · have hi : upd s.status id (some .pending) i = some .pending := hi
      rw [upd_ne _ _ e] at hi
      simp only [disputed]
      rw [if_neg (fun h => e h.symm)]
      exact h.open_ i hi
  · exact done_ext (ext := [.submitted id x s.now (s.now + s.period)]) (by simp) h.done

theorem HI.challenge (h : HI c claimOf honest prov s) {who : Acct} {id : Nat}
    (hs : Ethy.submitChallenge ec s who id = .ok s') : HI c claimOf honest prov s' := by
  obtain ⟨_, _, _, _, rfl⟩ := Ethy.submitChallenge_ok hs
  refine ⟨h.votes, ?_, ?_, ?_⟩
  · intro i hi
    by_cases e : i = id
    · subst e
      have hi : upd s.status i (some .challenged) i = some .provenValid := hi
      rw [upd_same] at hi; cases hi
    · have hi : upd s.status id (some .challenged) i = some .provenValid := hi
      rw [upd_ne _ _ e] at hi
      exact h.valid i hi
  · intro i hi
    by_cases e : i = id
    · subst e
      have hi : upd s.status i (some .challenged) i = some .pending := hi
      rw [upd_same] at hi; cases hi
    · have hi : upd s.status id (some .challenged) i = some .pending := hi
      rw [upd_ne _ _ e] at hi
      show disputed i (.challenged id who :: s.log) = false
      simp only [disputed]
      rw [if_neg (fun h => e h.symm)]
      exact h.open_ i hi
  · exact done_ext (ext := [.challenged id who]) (by simp) h.done

/-- A vote is recorded. -/
theorem HI.withVote (h : HI c claimOf honest prov s) {id : Nat} {key : Nat} {yes : Bool}
    (hy : yes = true → honest key → ∃ x, s.claims id = some x ∧ Shown c claimOf prov id x) :
    HI c claimOf honest prov (Ethy.withVote s id key yes) := by
  refine ⟨?_, h.valid, ?_, ?_⟩
  · intro i k hk ho
    have hk : (k, true) ∈ upd s.votes id (s.votes id ++ [(key, yes)]) i := hk
    by_cases e : i = id
    · subst e
      rw [upd_same, List.mem_append] at hk
      rcases hk with hk | hk
      · exact h.votes i k hk ho
      · simp only [List.mem_cons, List.not_mem_nil, or_false, Prod.mk.injEq] at hk
        obtain ⟨rfl, e2⟩ := hk
        exact hy e2.symm ho
    · rw [upd_ne _ _ e] at hk
      exact h.votes i k hk ho
  · intro i hi
    show disputed i ([.voted id key yes] ++ s.log) = false
    rw [disputed_append (by simp)]
    exact h.open_ i hi
  · exact done_ext (ext := [.voted id key yes]) (by simp) h.done

/-- A verdict on an event: its votes are cleared; it is refused (the claim is dropped, no status) or accepted. -/
theorem HI.verdict (h : HI c claimOf honest prov s) {id : Nat} {e : Ethy.Ev}
    (he : Neutral e) (hv : s'.votes = upd s.votes id [])
    (hl : s'.log = e :: s.log ∨ s'.log = s.log)
    (hc : (s'.claims = s.claims ∧ (s'.status = s.status ∨ (s'.status = upd s.status id (some .provenValid) ∧
        ∃ x, s.claims id = some x ∧ Shown c claimOf prov id x))) ∨
      (s'.claims = upd s.claims id none ∧ s'.status = upd s.status id none)) : HI c claimOf honest prov s' := by
  have hdis : ∀ i, disputed i s'.log = disputed i s.log := by
    intro i
    rcases hl with hl | hl
    · rw [hl]; exact disputed_append (ext := [e]) (by simpa using ⟨he.1, he.2.1⟩)
    · rw [hl]
  refine ⟨?_, ?_, ?_, ?_⟩
  · intro i k hk ho
    rw [hv] at hk
    by_cases ei : i = id
    · subst ei; rw [upd_same] at hk; cases hk
    · rw [upd_ne _ _ ei] at hk
      obtain ⟨x, h1, h2⟩ := h.votes i k hk ho
      refine ⟨x, ?_, h2⟩
      rcases hc with ⟨e1, _⟩ | ⟨e1, _⟩ <;> rw [e1]
      · exact h1
      · rw [upd_ne _ _ ei]; exact h1
  · intro i hi
    rcases hc with ⟨e1, e2⟩ | ⟨e1, e2⟩
    · rw [e1]
      rcases e2 with e2 | ⟨e2, hx⟩ <;> rw [e2] at hi
      · exact h.valid i hi
      · by_cases ei : i = id
        · subst ei; exact hx
        · rw [upd_ne _ _ ei] at hi; exact h.valid i hi
    · rw [e2] at hi
      by_cases ei : i = id
      · subst ei; rw [upd_same] at hi; cases hi
      · rw [upd_ne _ _ ei] at hi
        rw [e1, upd_ne _ _ ei]; exact h.valid i hi
  · intro i hi
    rw [hdis]
    rcases hc with ⟨_, e2⟩ | ⟨_, e2⟩
    · rcases e2 with e2 | ⟨e2, _⟩ <;> rw [e2] at hi
      · exact h.open_ i hi
      · by_cases ei : i = id
        · subst ei; rw [upd_same] at hi; cases hi
        · rw [upd_ne _ _ ei] at hi; exact h.open_ i hi
    · rw [e2] at hi
      by_cases ei : i = id
      · subst ei; rw [upd_same] at hi; cases hi
      · rw [upd_ne _ _ ei] at hi; exact h.open_ i hi
  · rcases hl with hl | hl
    · rw [hl]; exact done_ext (ext := [e]) (by simpa using he.2.2) h.done
    · rw [hl]; exact h.done

theorem HI.notarize (h : HI c claimOf honest prov s) (hci : Ethy.CI ec s) (hfew : Few honest ec.thr s.valCount)
    {idx id : Nat} {yes : Bool}
    (hy : ∀ key, s.notaryKeys[idx]? = some key → yes = true → honest key →
      ∃ x, s.claims id = some x ∧ Shown c claimOf prov id x)
    (hs : Ethy.notarize ec s idx id yes = .ok s') : HI c claimOf honest prov s' := by
  obtain ⟨key, hk, hf, hst, hcase⟩ := Ethy.notarize_ok hs
  have hv := h.withVote (hy key hk)
  have hc := Ethy.withVote_CI (yes := yes) hci hst hf
  have hchal : ((Ethy.withVote s id key yes).challenger id).isSome := (hci.chal id).mpr hst
  have hinv : Neutral (.invalid id) := ⟨by simp, by simp, by simp⟩
  have hver : Neutral (.verified id) := ⟨by simp, by simp, by simp⟩
  rcases hcase with ⟨_, hi⟩ | ⟨hp, hi⟩ | ⟨_, _, rfl⟩
  · obtain ⟨_, ⟨hn, _⟩ | ⟨ch, b, _, _, ⟨_, rfl⟩ | ⟨r, f1, h1, _, _, _, _, rfl⟩⟩⟩ := Ethy.handleInvalid_ok hi
    · rw [hn] at hchal; cases hchal
    all_goals exact hv.verdict hinv rfl (Or.inl rfl) (Or.inr ⟨rfl, rfl⟩)
  · -- among the voters there is an honest one
    have hex : ∃ k, (k, true) ∈ (Ethy.withVote s id key yes).votes id ∧ honest k := by
      by_contra hno
      push Not at hno
      have hfl := hfew (((Ethy.withVote s id key yes).votes id |>.filter (fun kv => kv.2 == true)).map Prod.fst)
        ((hc.nodup id).sublist (List.filter_sublist.map Prod.fst)) (by
          intro k hk'
          obtain ⟨kv, h1, rfl⟩ := List.mem_map.mp hk'
          obtain ⟨h2, h3⟩ := List.mem_filter.mp h1
          refine hno kv.1 ?_
          have : kv = (kv.1, true) := by
            rw [← (by simpa using h3 : kv.2 = true)]
          rw [← this]; exact h2)
      rw [List.length_map] at hfl
      unfold Ethy.countVotes at hp
      omega
    obtain ⟨k, hk1, hk2⟩ := hex
    have hx := hv.votes id k hk1 hk2
    obtain ⟨_, ⟨_, rfl⟩ | ⟨r, _, ⟨hn, _⟩ | ⟨ch, b, _, _, rfl⟩⟩⟩ := Ethy.handleValid_ok hi
    · exact hv.verdict hver rfl (Or.inr rfl) (Or.inl ⟨rfl, Or.inl rfl⟩)
    · rw [hn] at hchal; cases hchal
    · exact hv.verdict hver rfl (Or.inl rfl) (Or.inl ⟨rfl, Or.inr ⟨rfl, hx⟩⟩)
  · exact hv

/-- One message of the loop over the messages due. -/
theorem HI.processOne (acc : Ethy.Loop) (id : Nat) (hci : Ethy.CI ec acc.s) (h : HI c claimOf honest prov acc.s) :
    HI c claimOf honest prov (Ethy.processOne acc id).s := by
  rcases Ethy.processOne_cases acc id with ⟨_, e⟩ | ⟨hst, m, e⟩ <;> rw [e]
  · exact h.frame rfl rfl rfl rfl
  · have hvotes := hci.votes id hst
    unfold Ethy.deliver
    split
    · rename_i x hx
      refine ⟨?_, ?_, ?_, ?_⟩
      · intro i k hk ho
        have hk : (k, true) ∈ acc.s.votes i := hk
        by_cases ei : i = id
        · subst ei; rw [hvotes] at hk; cases hk
        · show ∃ y, upd acc.s.claims id none i = some y ∧ _
          rw [upd_ne _ _ ei]; exact h.votes i k hk ho
      · intro i hi
        have hi : upd acc.s.status id none i = some .provenValid := hi
        by_cases ei : i = id
        · subst ei; rw [upd_same] at hi; cases hi
        · rw [upd_ne _ _ ei] at hi
          show ∃ y, upd acc.s.claims id none i = some y ∧ _
          rw [upd_ne _ _ ei]; exact h.valid i hi
      · intro i hi
        have hi : upd acc.s.status id none i = some .pending := hi
        show disputed i ([.delivered id x acc.s.now] ++ acc.s.log) = false
        rw [disputed_append (by simp)]
        by_cases ei : i = id
        · subst ei; rw [upd_same] at hi; cases hi
        · rw [upd_ne _ _ ei] at hi; exact h.open_ i hi
      · intro l1 l2 i y t hl hq
        have hl : Ethy.Ev.delivered id x acc.s.now :: acc.s.log = l1 ++ Ethy.Ev.delivered i y t :: l2 := hl
        cases l1 with
        | cons a l1 =>
          rw [List.cons_append] at hl
          exact h.done l1 l2 i y t (List.cons.inj hl).2 hq
        | nil =>
          rw [List.nil_append] at hl
          obtain ⟨e1, rfl⟩ := List.cons.inj hl
          cases e1
          have hsome : (acc.s.status id).isSome := (hci.claim id).mp (by rw [hx]; rfl)
          cases hstat : acc.s.status id with
          | none => rw [hstat] at hsome; cases hsome
          | some st =>
            cases st with
            | pending => rw [h.open_ id hstat] at hq; cases hq
            | challenged => exact absurd hstat hst
            | provenValid =>
              obtain ⟨z, hz, hsh⟩ := h.valid id hstat
              rw [hx] at hz
              cases hz
              exact hsh
    · rename_i hx
      have hnone : acc.s.status id = none := by
        have h0 := (hci.claim id).not
        rw [hx] at h0
        simpa using h0
      refine h.frame rfl rfl ?_ rfl
      show upd acc.s.status id none = acc.s.status
      funext i
      by_cases ei : i = id
      · subst ei; rw [upd_same, hnone]
      · rw [upd_ne _ _ ei]

theorem HI.loop : ∀ (l : List Nat) (acc : Ethy.Loop), Ethy.CI ec acc.s → HI c claimOf honest prov acc.s →
    HI c claimOf honest prov (l.foldl Ethy.processOne acc).s
  | [], _, _, h => h
  | x :: xs, acc, hci, h =>
    HI.loop xs (Ethy.processOne acc x) (Ethy.processOne_CI acc x hci) (HI.processOne acc x hci h)

theorem HI.step (h : HI c claimOf honest prov s) (hci : Ethy.CI ec s) (hfew : Few honest ec.thr s.valCount) {op : Ethy.Op}
    (hop : ∀ idx id yes, op = .notarize idx id yes → ∀ key, s.notaryKeys[idx]? = some key → yes = true → honest key →
      ∃ x, s.claims id = some x ∧ Shown c claimOf prov id x)
    (hs : Ethy.step ec s op = .ok s') : HI c claimOf honest prov s' := by
  cases op with
  | submitEvent who id cl => exact h.submit hci (Ethy.submitEvent_ok hs).2.2
  | submitMissing who id cl => exact h.submit hci (Ethy.submitMissing_ok hs).2.2
  | challenge who id => exact h.challenge hs
  | notarize idx id yes => exact h.notarize hci hfew (hop idx id yes rfl) hs
  | setRelayer who => obtain ⟨_, rfl⟩ := Ethy.setRelayer_ok hs; exact h.frame rfl rfl rfl rfl
  | depositBond who => obtain ⟨_, _, rfl⟩ := Ethy.depositBond_ok hs; exact h.frame rfl rfl rfl rfl
  | withdrawBond who => obtain ⟨_, _, _, rfl⟩ := Ethy.withdrawBond_ok hs; exact h.frame rfl rfl rfl rfl
  | setPeriod m =>
    simp only [Ethy.step, Except.ok.injEq] at hs; subst hs; exact h.frame rfl rfl rfl rfl
  | removeMissing lo hi =>
    simp only [Ethy.step, Except.ok.injEq] at hs; subst hs; exact h.frame rfl rfl rfl rfl
  | setNotaries keys m =>
    simp only [Ethy.step, Except.ok.injEq] at hs; subst hs; exact h.frame rfl rfl rfl rfl
  | fund who amt =>
    simp only [Ethy.step, Except.ok.injEq] at hs; subst hs; exact h.frame rfl rfl rfl rfl
  | nextBlock =>
    simp only [Ethy.step, Except.ok.injEq] at hs; subst hs
    obtain ⟨pp, mm, e⟩ := Ethy.onInitialize_eq ec s
    rw [e]
    have h0 : HI c claimOf honest prov (Ethy.startLoop s).s := h.frame rfl rfl rfl rfl
    have hc0 : Ethy.CI ec (Ethy.startLoop s).s :=
      ⟨hci.chal, hci.claim, hci.votes, hci.nodup, hci.backed, hci.relayer⟩
    exact (HI.loop (s.validAt (s.now + 1)) (Ethy.startLoop s) hc0 h0).frame rfl rfl rfl rfl

theorem Reach.all (h : Reach c ec claimOf honest prov s) :
    HI c claimOf honest prov s ∧ Ethy.CI ec s ∧ Few honest ec.thr s.valCount := by
  induction h with
  | init hg hf =>
    refine ⟨⟨?_, ?_, ?_, ?_⟩, .genesis hg, hf⟩
    · intro id k hk; rw [hg.votes] at hk; cases hk
    · intro id hs; rw [hg.status] at hs; cases hs
    · intro id hs; rw [hg.status] at hs; cases hs
    · intro l1 l2 id x t hl
      rw [hg.log] at hl
      cases l1 <;> cases hl
  | other _ hop hs hf ih =>
    obtain ⟨h1, h2, h3⟩ := ih
    refine ⟨h1.step h2 h3 ?_ hs, h2.step hs, hf⟩
    intro idx id yes e key hk _ ho
    exact absurd ho (hop idx id yes key e hk)
  | @vote s s' paused rpc keys v _ hp hv hs ih =>
    obtain ⟨h1, h2, h3⟩ := ih
    obtain ⟨key, x, _, hk, _, hx, _, hres⟩ := worker_mem hv
    refine ⟨h1.step h2 h3 ?_ hs, h2.step hs, ?_⟩
    · intro idx id yes e key' hk' hy _
      unfold toOp at e
      cases e
      refine ⟨x, hx, rpc, hp, valid_shows ?_⟩
      rw [← hres]
      exact of_decide_eq_true hy
    · have hc : s'.valCount = s.valCount := (Ethy.notarize_frame hs).2.2.2.2.2.2.1
      rw [hc]; exact h3
end

end Verif.Notary
