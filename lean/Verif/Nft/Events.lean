import Verif.Nft.Story

/-!
# C234: whoever follows the events of the NFT pallet knows who has what, but for two silent calls
-/

namespace Verif.Nft

/-- A call keeps the invariants. -/
theorem Reach.call {c : Cfg} {s s' : St} {k : Call} (h : Reach c Bridged s) (hG : Usual s k) (hs : call c s k = .ok s') :
    Reach c Bridged s' := h.step hG (call_ok hs).2

/-- The event of a call makes the picture right, except for tokens the call is silent about. -/
theorem call_right {c : Cfg} {s s' : St} {k : Call} (h0 : Reach c Bridged s) (hG : Usual s k) (h : call c s k = .ok s')
    (hb : ∀ w id n, k ≠ .bridgeBurn w id n) : Right c s k (after (picture s) (event c s k)) s' := by
  have h' := Reach.call h0 hG h
  obtain ⟨hr, hs⟩ := call_ok h
  cases k with
  | act op => exact act_right h0.ai h0.bi h'.bi hr hs
  | toggle w id b => exact .of_eq (pub_right hs)
  | setFee w id p => exact .of_eq (pub_right hs)
  | bridgeBurn w id n => exact absurd rfl (hb w id n)

theorem Told.reach {c : Cfg} {G : St → Call → Prop} (hG : ∀ s k, G s k → Usual s k) {s t : St} {log : List Ev}
    (h0 : Reach c Bridged s) (h : Told c G s t log) : Reach c Bridged t := by
  induction h with
  | refl => exact h0
  | step _ hg hc ih => exact ih.call (hG _ _ hg) hc

/-- C234, as far as it holds: somebody who knows all collections and tokens at one point and reads the events from there on
knows at every later point who has each token, how many tokens there are, and owner, royalties, limit, origin, XRPL
compatibility, utility flags and public minting rules of every collection, provided that since then no collection was created
with first tokens for somebody else than its owner and no bridge burnt a token. -/
theorem C234_partial {c : Cfg} {s t : St} {log : List Ev} (h0 : Reach c Bridged s) (h : Told c (Open c) s t log) :
    log.foldl follow (picture s) = picture t := by
  induction h with
  | refl => rfl
  | @step t u log k h1 hg hc ih =>
    have ht := Told.reach (fun _ _ hk => hk.1) h0 h1
    have hb : ∀ w id n, k ≠ .bridgeBurn w id n := by
      rintro w id n rfl
      exact hg.2 id n .withdrawn
    have hr := call_right ht hg.1 hc hb
    rw [List.foldl_append, ih]
    have hh : (picture u).holder = (after (picture t) (event c t k)).holder := by
      funext id n
      exact hr.holder id n (hg.2 id n)
    have e1 := hr.colls
    have e2 := hr.issued
    have e3 := hr.flags
    have e4 := hr.pub
    show after (picture t) (event c t k) = picture u
    show Picture.mk (after (picture t) (event c t k)).colls (after (picture t) (event c t k)).holder
      (after (picture t) (event c t k)).issued (after (picture t) (event c t k)).flags
      (after (picture t) (event c t k)).pub = _
    rw [← e1, ← e2, ← e3, ← e4, ← hh]

/-- C234, in every history: what the reader knows of collections is exact, there are never more tokens than they count, and
where they are wrong about a token, the last call that concerned it was silent about it: since then no event has named it. -/
theorem C234_behind {c : Cfg} {s t : St} {log : List Ev} (h0 : Reach c Bridged s) (h : Told c Usual s t log) :
    (log.foldl follow (picture s)).colls = (picture t).colls ∧
    (log.foldl follow (picture s)).flags = (picture t).flags ∧
    (log.foldl follow (picture s)).pub = (picture t).pub ∧
    (∀ id, (picture t).issued id ≤ (log.foldl follow (picture s)).issued id) ∧
    ∀ id n, (log.foldl follow (picture s)).holder id n = ownerOf t id n ∨
      ∃ u v k log1 log2, Told c Usual s u log1 ∧ Silent c u id n k ∧ call c u k = .ok v ∧ Told c Usual v t log2 ∧
        log = log1 ++ (event c u k).toList ++ log2 ∧ ∀ e ∈ log2, e.names id n = false := by
  induction h with
  | refl => exact ⟨rfl, rfl, rfl, fun _ => le_refl _, fun _ _ => Or.inl rfl⟩
  | @step t u log k h1 hg hc ih =>
    obtain ⟨i1, i2, i3, i4, i5⟩ := ih
    have ht := Told.reach (fun _ _ hk => hk) h0 h1
    rw [List.foldl_append]
    show (after (log.foldl follow (picture s)) (event c t k)).colls = _ ∧ _
    by_cases hb : ∃ w id n, k = .bridgeBurn w id n
    · obtain ⟨w, id, n, rfl⟩ := hb
      have hbi := ht.bi
      have hbi' := (ht.call hg hc).bi
      have e := burn_right hbi hbi' (call_ok hc).2
      refine ⟨?_, ?_, ?_, ?_, ?_⟩
      · rw [e]; exact i1
      · rw [e]; exact i2
      · rw [e]; exact i3
      · intro j
        refine Nat.le_trans ?_ (i4 j)
        rw [e]
        show upd (picture t).issued id ((picture t).issued id - 1) j ≤ _
        by_cases ej : j = id
        · subst ej; rw [upd_same]; omega
        · rw [upd_ne _ _ ej]
      · intro j m
        by_cases ej : j = id ∧ m = n
        · obtain ⟨rfl, rfl⟩ := ej
          refine Or.inr ⟨t, u, _, log, [], h1, .withdrawn, hc, .refl, ?_, fun _ he => (nomatch he)⟩
          rw [List.append_nil]
        · have hsame : ownerOf u j m = ownerOf t j m := by
            have : (picture u).holder j m = (follow (picture t) (.burn id n)).holder j m := by rw [e]
            refine this.trans ((follow_holder (picture t) (picture t) (.burn id n) j m).1 ?_)
            refine decide_eq_false fun hx => ej ⟨hx.1.symm, hx.2.symm⟩
          rcases i5 j m with h2 | ⟨u', v, k', l1, l2, a1, a2, a3, a4, a5, a6⟩
          · exact Or.inl (h2.trans hsame.symm)
          · refine Or.inr ⟨u', v, k', l1, l2, a1, a2, a3, ?_, ?_, a6⟩
            · have := a4.step hg hc
              simpa [event] using this
            · simpa [event] using a5
    · have hr := call_right ht hg hc (fun w id n hk => hb ⟨w, id, n, hk⟩)
      refine ⟨?_, ?_, ?_, ?_, ?_⟩
      · rw [hr.colls]; exact after_colls _ _ _ i1
      · rw [hr.flags]; exact after_flags _ _ _ i2
      · rw [hr.pub]; exact after_pub _ _ _ i3
      · intro j
        rw [hr.issued]
        exact after_issued _ _ _ i4 j
      · intro j m
        by_cases hsil : Silent c t j m k
        · refine Or.inr ⟨t, u, k, log, [], h1, hsil, hc, .refl, ?_, fun _ he => (nomatch he)⟩
          rw [List.append_nil]
        · have hh := hr.holder j m hsil
          cases he : event c t k with
          | none =>
            rw [he] at hh
            rcases i5 j m with h2 | ⟨u', v, k', l1, l2, a1, a2, a3, a4, a5, a6⟩
            · exact Or.inl (h2.trans hh.symm)
            · refine Or.inr ⟨u', v, k', l1, l2, a1, a2, a3, ?_, ?_, a6⟩
              · have := a4.step hg hc
                rw [he] at this
                simpa using this
              · simpa using a5
          | some e =>
            rw [he] at hh
            cases hn : e.names j m with
            | true => exact Or.inl (((follow_holder (log.foldl follow (picture s)) (picture t) e j m).2 hn).trans hh.symm)
            | false =>
              have hh2 := hh.trans ((follow_holder (picture t) (picture t) e j m).1 hn)
              rcases i5 j m with h2 | ⟨u', v, k', l1, l2, a1, a2, a3, a4, a5, a6⟩
              · exact Or.inl ((((follow_holder (log.foldl follow (picture s)) (picture t) e j m).1 hn).trans h2).trans hh2.symm)
              · refine Or.inr ⟨u', v, k', l1, l2 ++ [e], a1, a2, a3, ?_, ?_, ?_⟩
                · have := a4.step hg hc
                  rw [he] at this
                  exact this
                · rw [a5]; simp
                · intro e' he'
                  rcases List.mem_append.mp he' with h3 | h3
                  · exact a6 e' h3
                  · rw [List.mem_singleton.mp h3]; exact hn

/-! ## Refutation and examples -/

/-- Histories made of concrete calls. -/
theorem Told.run1 {c : Cfg} {G : St → Call → Prop} {s t : St} {log : List Ev} {k : Call} (h : Told c G s t log) (hG : G t k)
    (hok : (call c t k).isOk = true) : Told c G s (run c [k] t).1 (log ++ (event c t k).toList) := by
  unfold run
  cases hc : call c t k with
  | error e => rw [hc] at hok; cases hok
  | ok u => exact h.step hG hc

def xc : Cfg := ⟨1000000, 1000, 100, 7⟩

/-- The chain before the first collection. -/
def xs : St where
  coll := fun _ => none
  locks := fun _ _ => none
  flags := fun _ => ⟨true, true, true⟩
  pubMint := fun _ => ⟨false, none⟩
  nextId := 0
  approvals := fun _ _ => none
  forAll := fun _ _ _ => false
  ledger := Ledger.empty
  minted := []

theorem xs_genesis : Genesis xs := ⟨fun _ => rfl, rfl, fun _ _ => rfl, fun _ _ => rfl, fun _ _ _ => rfl, rfl⟩

/-- Account 1 creates a collection with three tokens for `w`. -/
def xgive (w : Option Acct) : Call := .act (.create 1 3 none w none false)

/-- A collection comes over the bridge, and token 5 for account 2. -/
def xbridge : List Call := [.act (.createBridged 7 .ethereum false), .act (.bridgedMint 100 2 [5])]

/-- C234 is false of the code, in two ways. No reading of the events tells who has the tokens: it is not
enough (1) even if the bridges burn nothing, because the event of a new collection does not say whose its first tokens are, and
(2) even if no collection is created with tokens for somebody else, because withdrawing a token over a bridge burns it without
an event of the NFT pallet. -/
theorem C234_refuted :
    (¬ ∃ read : List Ev → Nat → Nat → Option Acct, ∀ c s t log, Genesis s →
      Told c (fun u k => Usual u k ∧ ∀ w id n, k ≠ .bridgeBurn w id n) s t log → ∀ id n, read log id n = ownerOf t id n) ∧
    (¬ ∃ read : List Ev → Nat → Nat → Option Acct, ∀ c s t log, Genesis s →
      Told c (fun u k => Usual u k ∧ ∀ o i m w r x, k ≠ .act (.create o i m (some w) r x)) s t log →
      ∀ id n, read log id n = ownerOf t id n) := by
  constructor
  · rintro ⟨read, h⟩
    have h1 := h xc xs _ _ xs_genesis
      (Told.run1 (k := xgive (some 1)) .refl ⟨trivial, fun _ _ _ h => nomatch h⟩ (by decide +kernel)) 100 0
    have h2 := h xc xs _ _ xs_genesis
      (Told.run1 (k := xgive (some 2)) .refl ⟨trivial, fun _ _ _ h => nomatch h⟩ (by decide +kernel)) 100 0
    have e : event xc xs (xgive (some 1)) = event xc xs (xgive (some 2)) := by decide +kernel
    rw [e, h2] at h1
    exact absurd h1 (by decide +kernel)
  · rintro ⟨read, h⟩
    obtain ⟨log, r2⟩ : ∃ log, Told xc (fun u k => Usual u k ∧ ∀ o i m w r x, k ≠ .act (.create o i m (some w) r x)) xs
        (run xc [.act (.bridgedMint 100 2 [5])] (run xc [.act (.createBridged 7 .ethereum false)] xs).1).1 log := by
      refine ⟨_, Told.run1 (Told.run1 .refl ⟨trivial, fun _ _ _ _ _ _ h => nomatch h⟩ (by decide +kernel)) ⟨?_, fun _ _ _ _ _ _ h => nomatch h⟩
        (by decide +kernel)⟩
      intro k hk hr
      have : ((run xc [.act (.createBridged 7 .ethereum false)] xs).1.coll 100).map Coll.origin = some .ethereum := by
        decide +kernel
      rw [hk] at this
      injection this with this
      rw [hr] at this
      cases this
    have h1 := h xc xs _ _ xs_genesis r2 100 5
    have h2 := h xc xs _ _ xs_genesis (Told.run1 (k := .bridgeBurn 2 100 5) r2 ⟨trivial, fun _ _ _ _ _ _ h => nomatch h⟩
      (by decide +kernel)) 100 5
    have e : ∀ l : List Ev, ∀ u, l ++ (event xc u (.bridgeBurn 2 100 5)).toList = l := fun l _ => List.append_nil l
    rw [e, h1] at h2
    exact absurd h2 (by decide +kernel)

/-- C234. Where an event says that tokens went from one account to another, they were owned by the one before the call
and are owned by the other one after it. -/
theorem C234_transfer {c : Cfg} {s u : St} {k : Call} {old new : Acct} {id : Nat} {ns : List Nat} (h0 : Reach c Bridged s)
    (hg : Usual s k) (hc : call c s k = .ok u) (he : event c s k = some (.transfer old id ns new)) {n : Nat} (hn : n ∈ ns) :
    ownerOf s id n = some old ∧ ownerOf u id n = some new := by
  have hb := (h0.call hg hc).bi
  simp only [call, bind_ok] at hc
  obtain ⟨_, _, hc⟩ := hc
  have main : doTransfer c s id ns old new = .ok u → ownerOf s id n = some old ∧ ownerOf u id n = some new := by
    intro h
    refine ⟨?_, ?_⟩
    · simp only [doTransfer, bind_ok, ensure_ok, okOr_ok] at h
      obtain ⟨_, _, _, _, _, _, q, hq, _, ho, _⟩ := h
      unfold ownerOf
      rw [hq]
      exact (getOwner_iff (h0.bi.coll id q hq).uniq).mpr (isTokenOwner_iff.mp (ho n hn).1)
    · show (picture u).holder id n = some new
      rw [transfer_right h0.ai h0.bi hb h]
      simp [follow, Picture.give, hn]
  cases k with
  | act op =>
    cases op with
    | transfer w i ms q =>
      cases he
      exact main hc
    | transferFrom w i m src dst =>
      cases he
      simp only [Call.op, step, transferFrom, bind_ok] at hc
      obtain ⟨_, _, hc⟩ := hc
      exact main hc
    | create o i m r x y =>
      simp only [event, opEv, createEv, Option.map_eq_some_iff] at he
      obtain ⟨_, _, he⟩ := he
      cases he
    | createBridged o g x =>
      simp only [event, opEv, createEv, Option.map_eq_some_iff] at he
      obtain ⟨_, _, he⟩ := he
      cases he
    | mint w i q t x =>
      simp only [event, opEv, mintEv, Option.map_eq_some_iff] at he
      obtain ⟨_, _, he⟩ := he
      cases he
    | bridgedMint i w ms =>
      simp only [event, opEv, bridgedEv] at he
      split at he
      · cases he
      · split at he
        · cases he
        · split at he <;> cases he
    | _ => cases he
  | _ => cases he

/-- Non-vacuity of C234_partial: a collection is created, tokens are minted, moved and burnt, and rules set; the events tell
it all. -/
def xcalls : List Call :=
  [.act (.create 1 2 none none none false), .act (.mint 1 100 3 (some 2) true), .act (.transfer 2 100 [3, 4] 5),
    .act (.burn 1 100 0), .toggle 1 100 true, .setFee 1 100 (some (⟨1, by decide⟩, 9)), .act (.setOwner 1 100 6),
    .act (.setMaxIssuance 6 100 50)]

example : (run xc xcalls xs).2 = [.create 100 2 none 1 none .root false, .mint 100 2 4 2, .transfer 2 100 [3, 4] 5, .burn 100 0,
    .toggle 100 true, .price 100 (some (⟨1, by decide⟩, 9)), .ownerSet 100 6, .maxIssuance 100 50] ∧
    (run xc xcalls xs).1.nextId = 1 ∧
    [0, 1, 2, 3, 4, 5].map (ownerOf (run xc xcalls xs).1 100) = [none, some 1, some 2, some 5, some 5, none] ∧
    [0, 1, 2, 3, 4, 5].map (((run xc xcalls xs).2.foldl follow (picture xs)).holder 100) =
      [none, some 1, some 2, some 5, some 5, none] ∧
    ((run xc xcalls xs).2.foldl follow (picture xs)).issued 100 = 4 ∧
    ((run xc xcalls xs).2.foldl follow (picture xs)).colls 100 = some ⟨6, none, some 50, .root, false⟩ := by decide +kernel

example := C234_transfer (c := xc) (s := (run xc (xcalls.take 2) xs).1) (k := .act (.transfer 2 100 [3, 4] 5)) (n := 4)
  (Told.reach (G := Usual) (fun _ _ h => h) (.init xs_genesis) (Told.run1 (k := .act (.mint 1 100 3 (some 2) true))
    (Told.run1 (k := .act (.create 1 2 none none none false)) .refl trivial (by decide +kernel)) trivial (by decide +kernel)))
  trivial rfl rfl (by decide)

/-- Its hypotheses are met by that history. -/
example : ∃ log t, Told xc (Open xc) xs t log ∧ t.coll 100 ≠ none ∧ log.length = 2 := by
  refine ⟨_, _, Told.run1 (k := .toggle 1 100 true) (Told.run1 (k := .act (.create 1 2 none none none false)) .refl
    ⟨trivial, fun _ _ h => nomatch h⟩ (by decide +kernel)) ⟨trivial, fun _ _ h => nomatch h⟩ (by decide +kernel), ?_, ?_⟩
  · decide +kernel
  · decide +kernel

/-- The first tokens of a collection given away: the reader is wrong about them until an event names them. -/
example : ((run xc [xgive (some 2)] xs).2.foldl follow (picture xs)).holder 100 0 = some 1 ∧
    ownerOf (run xc [xgive (some 2)] xs).1 100 0 = some 2 ∧
    ((run xc [xgive (some 2), .act (.transfer 2 100 [0] 3)] xs).2.foldl follow (picture xs)).holder 100 0 = some 3 ∧
    ownerOf (run xc [xgive (some 2), .act (.transfer 2 100 [0] 3)] xs).1 100 0 = some 3 := by decide +kernel

/-- A token withdrawn over the bridge: the reader still sees it, and counts it. -/
example : ((run xc (xbridge ++ [.bridgeBurn 2 100 5]) xs).2.foldl follow (picture xs)).holder 100 5 = some 2 ∧
    ownerOf (run xc (xbridge ++ [.bridgeBurn 2 100 5]) xs).1 100 5 = none ∧
    ((run xc (xbridge ++ [.bridgeBurn 2 100 5]) xs).2.foldl follow (picture xs)).issued 100 = 1 ∧
    (picture (run xc (xbridge ++ [.bridgeBurn 2 100 5]) xs).1).issued 100 = 0 := by decide +kernel

end Verif.Nft
