import Verif.Xls20.Props

/-!
# Deposits, withdrawals and backing of XLS-20 tokens
-/

namespace Verif.Xls20

open Nft (Owns)
open NftPeg (Ex)

/-- The door account holds the token, but no token on the chain stands for it and no offer is made for it. -/
def Stuck (w : World) (t : Nat) : Prop :=
  w.door t = true ∧ (∀ id n a, Nft.ownerOf w.st.nft id n = some a → w.st.ids id n ≠ some t) ∧
    ∀ o ∈ w.offers, o.1 ≠ t

/-- States reached from `w` by successful operations satisfying `G`. -/
inductive Later (c : Cfg) (G : World → Op → Prop) (w : World) : World → Prop where
  | refl : Later c G w w
  | step {v v' : World} {op : Op} : Later c G w v → G v op → step c v op = .ok v' → Later c G w v'

theorem Later.reach {c : Cfg} {G : World → Op → Prop} {w v : World} (h : Reach c G w) (hl : Later c G w v) : Reach c G v := by
  induction hl with
  | refl => exact h
  | step _ hE hs ih => exact ih.step hE hs

/-! ## C129: deposits -/

theorem ex_iff {s : Nft.St} {id n : Nat} : Ex s id n ↔ ∃ a, Nft.ownerOf s id n = some a :=
  (Nft.ownerOf_exists.trans ⟨fun ⟨k, a, h1, h2⟩ => ⟨k, h1, a, h2⟩, fun ⟨k, h1, a, h2⟩ => ⟨k, a, h1, h2⟩⟩).symm

theorem stuck_iff {w : World} {t : Nat} : Stuck w t ↔ w.door t = true ∧ (∀ id n, ¬ Stands w.st id n t) ∧
    t ∉ w.offers.map Prod.fst := by
  unfold Stuck Stands
  constructor
  · rintro ⟨h1, h2, h3⟩
    refine ⟨h1, ?_, ?_⟩
    · rintro id n ⟨hx, ht⟩
      obtain ⟨a, ha⟩ := ex_iff.mp hx
      exact h2 id n a ha ht
    · intro hm
      obtain ⟨o, ho, e⟩ := List.mem_map.mp hm
      exact h3 o ho e
  · rintro ⟨h1, h2, h3⟩
    refine ⟨h1, fun id n a ha ht => h2 id n ⟨ex_iff.mpr ⟨a, ha⟩, ht⟩, fun o ho e => h3 (List.mem_map.mpr ⟨o, ho, e⟩)⟩

theorem mintInto_got {c : Cfg} {s : St} {rcv : Acct} {t id : Nat} {k : Nft.Coll} (hk : s.nft.coll id = some k)
    (hnew : ¬ Ex s.nft id (seqOf t)) (hmax : 1 ≤ c.nft.maxTokens) (hok : (mintInto c s rcv t id).2 = none) :
    Ex (mintInto c s rcv t id).1.nft id (seqOf t) ∧ (mintInto c s rcv t id).1.ids id (seqOf t) = some t ∧
      (mintInto c s rcv t id).1.colls = s.colls ∧
      (∃ k', (mintInto c s rcv t id).1.nft.coll id = some k' ∧ Owns k'.owned rcv (seqOf t)) ∧
      (∀ j m, (j, m) ≠ (id, seqOf t) → (mintInto c s rcv t id).1.ids j m = s.ids j m) := by
  unfold mintInto at hok ⊢
  split
  · rename_i e he
    rw [he] at hok
    cases hok
  · rename_i n hn
    obtain ⟨k', hk', _, _, _, hmint, _⟩ := NftPeg.bridgedMint_ok hk hn
    have hlen : (Nft.trim k [seqOf t]).length ≤ c.nft.maxTokens := by
      refine le_trans ?_ hmax
      unfold Nft.trim
      exact (List.length_filter_le _ _).trans ((List.dedup_sublist _).length_le.trans
        (le_of_eq (List.length_insertionSort _ _)))
    have hown := hmint hlen (seqOf t) List.mem_cons_self (fun b hb => hnew ⟨k, hk, b, hb⟩)
    refine ⟨⟨k', hk', rcv, hown⟩, by dsimp only; rw [upd_same, upd_same], rfl, ⟨k', hk', hown⟩, fun j m hne => ?_⟩
    dsimp only
    by_cases hj : j = id
    · subst hj
      rw [upd_same, upd_ne _ _ (fun e => hne (by rw [e]))]
    · rw [upd_ne _ _ hj]

theorem mintInto_err {c : Cfg} {s : St} {rcv : Acct} {t id : Nat} (h : (mintInto c s rcv t id).2 ≠ none) :
    (mintInto c s rcv t id).1 = s := by
  unfold mintInto at h ⊢
  split
  · rfl
  · rename_i n hn
    rw [hn] at h
    exact absurd rfl h

/-- A deposit is a mint into the collection of its issuer and taxon, or leaves every token and every recorded id
as they are. -/
theorem deposit_cases {c : Cfg} {s : St} {S : List Nat} {rcv : Acct} {t : Nat} (hm : Maps c s S) :
    ((deposit c s rcv t).2 ≠ none ∧ (∀ j m, Ex (deposit c s rcv t).1.nft j m ↔ Ex s.nft j m) ∧
      (deposit c s rcv t).1.ids = s.ids) ∨
    ∃ s1 id, deposit c s rcv t = mintInto c s1 rcv t id ∧ (mintInto c s1 rcv t id).2 = none ∧ Maps c s1 S ∧
      s1.colls (keyOf t) = some id ∧ s1.ids = s.ids ∧ (∀ j m, Ex s1.nft j m ↔ Ex s.nft j m) ∧
      s.migrating = false ∧ isBurnable t = false := by
  unfold deposit
  split
  · exact Or.inl ⟨by simp, fun _ _ => Iff.rfl, rfl⟩
  · rename_i hmig
    split
    · exact Or.inl ⟨by simp, fun _ _ => Iff.rfl, rfl⟩
    · rename_i hburn
      split
      · rename_i id hid
        by_cases hok : (mintInto c s rcv t id).2 = none
        · exact Or.inr ⟨s, id, rfl, hok, hm, hid, rfl, fun _ _ => Iff.rfl, by simpa using hmig, by simpa using hburn⟩
        · exact Or.inl ⟨hok, by rw [mintInto_err hok]; exact fun _ _ => Iff.rfl, by rw [mintInto_err hok]⟩
      · rename_i hnone
        split
        · exact Or.inl ⟨by simp, fun _ _ => Iff.rfl, rfl⟩
        · rename_i id hid
          split
          · exact Or.inl ⟨by simp, fun _ _ => Iff.rfl, rfl⟩
          · rename_i n hn
            obtain ⟨h1, hex⟩ := hm.create hnone hid hn
            by_cases hok : (mintInto c { s with
                nft := n
                colls := upd s.colls (keyOf t) (some id) } rcv t id).2 = none
            · exact Or.inr ⟨_, id, rfl, hok, h1, upd_same _ _ _, rfl, hex, by simpa using hmig, by simpa using hburn⟩
            · exact Or.inl ⟨hok, by rw [mintInto_err hok]; exact hex, by rw [mintInto_err hok]⟩

/-- C129 holds for a deposit that is processed without an error: the receiver owns, in the collection of the
token's issuer and taxon, the token whose number is its sequence number, recorded with exactly this XLS-20 id. -/
theorem C129_deposit_partial {c : Cfg} {w w' : World} {rcv : Acct} {t : Nat} (h : Reach c NoRemap w)
    (hE : Env w (.deposit rcv t)) (hmax : 1 ≤ c.nft.maxTokens) (hs : step c w (.deposit rcv t) = .ok w')
    (hok : (deposit c w.st rcv t).2 = none) :
    ∃ id, w'.st.colls (issuerOf t, taxonOf t) = some id ∧ Nft.ownerOf w'.st.nft id (seqOf t) = some rcv ∧
      w'.st.ids id (seqOf t) = some t := by
  have hi := h.inv
  have hi' := (h.step ⟨hE, fun l e => by cases e⟩ hs).inv
  have hsafe := hi.safe
  cases hs
  dsimp only at hi' ⊢
  rcases deposit_cases (rcv := rcv) (t := t) hi.maps with ⟨h1, _⟩ | ⟨s1, id, he, hok1, hm1, hid, hids, hex, _, _⟩
  · exact absurd hok h1
  · obtain ⟨k, hk, _⟩ := hm1.xrpl _ _ hid
    have habs : ¬ Ex s1.nft id (seqOf t) :=
      Inv.absent hm1 (hsafe.sub (fun i m t' hx => ⟨(hex i m).mp hx.1, hids ▸ hx.2⟩)) hid hE.1 hE.2
    obtain ⟨_, h2, h3, ⟨k', hk', hown⟩, _⟩ := mintInto_got (rcv := rcv) hk habs hmax hok1
    have hn := hi'.maps.nft
    dsimp only at hn
    rw [he] at hn ⊢
    refine ⟨id, by rw [h3]; exact hid, ?_, h2⟩
    rw [Nft.ownerOf_some hk']
    exact (Nft.getOwner_iff (hn.bi.coll id k' hk').uniq).mpr hown

/-- C129: a deposit that runs into an error leaves the token with the door account and gives nobody anything. -/
theorem C129_failed_stuck {c : Cfg} {w w' : World} {rcv : Acct} {t : Nat} (h : Reach c NoRemap w)
    (hE : Env w (.deposit rcv t)) (hs : step c w (.deposit rcv t) = .ok w') (hf : (deposit c w.st rcv t).2 ≠ none) :
    Stuck w' t := by
  have hi := h.inv
  have hsafe := hi.safe
  cases hs
  rw [stuck_iff]
  dsimp only
  have hnot : ∀ i m, ¬ Stands w.st i m t := by
    intro i m hx
    have := hsafe.held i m t hx
    rw [hE.1] at this
    cases this
  refine ⟨upd_same _ _ _, ?_, ?_⟩
  · rcases deposit_cases (rcv := rcv) (t := t) hi.maps with ⟨_, hex, hids⟩ | ⟨s1, id, he, hok1, _⟩
    · intro i m hx
      exact hnot i m ⟨(hex i m).mp hx.1, hids ▸ hx.2⟩
    · rw [he] at hf
      exact absurd hok1 hf
  · intro hx
    have := (hsafe.offer t hx).1
    rw [hE.1] at this
    cases this

/-- What can stand for a token after a step, and what can be on offer. -/
theorem step_stands {c : Cfg} {w w' : World} {op : Op} (h : Inv c w) (hE : NoRemap w op) (hs : step c w op = .ok w') {t : Nat}
    (ht : w.door t = true) : (∀ i m, Stands w'.st i m t → Stands w.st i m t) ∧
      (t ∈ w'.offers.map Prod.fst → t ∈ w.offers.map Prod.fst ∨ ∃ i m, Stands w.st i m t) ∧
      (w'.door t = true ∨ t ∈ w.offers.map Prod.fst) := by
  have hm := h.maps
  have hsafe := h.safe
  cases op with
  | deposit rcv t0 =>
    have hne : t ≠ t0 := by
      rintro rfl
      have := hE.1.1
      rw [ht] at this
      cases this
    cases hs
    dsimp only
    refine ⟨?_, Or.inl, Or.inl (by rw [upd_ne _ _ hne]; exact ht)⟩
    rcases deposit_cases (rcv := rcv) (t := t0) hm with ⟨_, hex, hids⟩ | ⟨s1, id, he, hok1, hm1, hid, hids, hex, _, _⟩
    · intro i m hx
      exact ⟨(hex i m).mp hx.1, hids ▸ hx.2⟩
    · rw [he]
      have hu : ∀ t' ∈ t0 :: w.seen, issuerOf t' = issuerOf t0 → seqOf t' = seqOf t0 → t' = t0 := by
        intro t' ht'
        rcases List.mem_cons.mp ht' with rfl | h1
        · intros; rfl
        · exact hE.1.2 t' h1
      have habs : ¬ Ex s1.nft id (seqOf t0) :=
        Inv.absent hm1 (hsafe.sub (fun i m t' hx => ⟨(hex i m).mp hx.1, hids ▸ hx.2⟩)) hid hE.1.1 hE.1.2
      obtain ⟨_, h2, _⟩ := (hm1.more (fun x hx => List.mem_cons_of_mem t0 hx)).mintInto (rcv := rcv) hid List.mem_cons_self habs
      intro i m hx
      rcases h2 i m t hx with h3 | ⟨_, _, h3⟩
      · exact ⟨(hex i m).mp h3.1, hids ▸ h3.2⟩
      · exact absurd h3 hne
  | withdraw who id n dest ok =>
    simp only [Xls20.step, bind_ok, pure_ok, Prod.exists] at hs
    obtain ⟨s1, t1, d, hw, rfl⟩ := hs
    obtain ⟨_, _, _, hid, _, f, hf, rfl⟩ := withdraw_ok hw
    have hb : Nft.step c.nft w.st.nft (.burn who id n) = .ok f := hf
    obtain ⟨_, h2⟩ := hm.nft_step (op := .burn who id n) trivial hb (fun _ _ _ e => by cases e) (fun _ _ _ e => by cases e)
    obtain ⟨k, hk, hown, _⟩ := NftPeg.doBurn_ok hf
    refine ⟨fun i m hx => h2 i m t hx, fun hx => ?_, Or.inl ht⟩
    dsimp only at hx
    rw [List.map_append, List.mem_append, List.map_cons, List.map_nil, List.mem_singleton] at hx
    rcases hx with h3 | h3
    · exact Or.inl h3
    · exact Or.inr ⟨id, n, ⟨⟨k, hk, who, hown⟩, by rw [h3]; exact hid⟩⟩
  | accept i =>
    simp only [Xls20.step, bind_ok, okOr_ok, pure_ok] at hs
    obtain ⟨o, ho, rfl⟩ := hs
    refine ⟨fun _ _ hx => hx, fun hx => Or.inl ?_, ?_⟩
    · dsimp only at hx
      rw [List.eraseIdx_eq_take_drop_succ, List.map_append, List.mem_append] at hx
      rcases hx with h1 | h1
      · exact List.map_subset _ (List.take_subset _ _) h1
      · exact List.map_subset _ (List.drop_subset _ _) h1
    · dsimp only
      by_cases he : t = o.1
      · exact Or.inr (by rw [he]; exact List.mem_map_of_mem (List.mem_of_getElem? ho))
      · exact Or.inl (by rw [upd_ne _ _ he]; exact ht)
  | reRequest who id ns =>
    simp only [Xls20.step, bind_ok, pure_ok] at hs
    obtain ⟨s1, hr, rfl⟩ := hs
    obtain ⟨_, _, _, L, hL, rfl⟩ := reRequest_ok hr
    exact ⟨fun _ _ hx => hx, Or.inl, Or.inl ht⟩
  | fulfil who id l =>
    simp only [Xls20.step, bind_ok, pure_ok] at hs
    obtain ⟨s1, hr, rfl⟩ := hs
    obtain ⟨_, _, _, _, k, f, hk, hins, rfl⟩ := fulfil_ok hr
    obtain ⟨_, _, h3⟩ := insertAll_ok hins
    refine ⟨?_, Or.inl, Or.inl (by simp only [ht, Bool.or_true])⟩
    rintro i m ⟨hx, hid⟩
    dsimp only at hid
    rcases h3 i m with h4 | ⟨_, _, t', h5, h6⟩
    · rw [h4] at hid
      exact ⟨hx, hid⟩
    · rw [h6] at hid
      cases hid
      have := hE.1.2.1 _ h5
      rw [ht] at this
      cases this
  | setRelayer r => cases hs; exact ⟨fun _ _ hx => hx, Or.inl, Or.inl ht⟩
  | setFee f => cases hs; exact ⟨fun _ _ hx => hx, Or.inl, Or.inl ht⟩
  | setMappings l => exact absurd rfl (hE.2 l)
  | migration b => cases hs; exact ⟨fun _ _ hx => hx, Or.inl, Or.inl ht⟩
  | nft op =>
    simp only [Xls20.step, bind_ok, pure_ok] at hs
    obtain ⟨s1, hr, rfl⟩ := hs
    obtain ⟨n, n', hn, hL, h1, h2, h3, _⟩ := nftStep_ok hr
    have hb : Nft.Bridged w.st.nft op := by
      cases op with
      | bridgedMint id a ns => intro k hk; rw [hE.1 k hk]; decide
      | _ => trivial
    obtain ⟨h4, h5⟩ := hm.nft_step hb hn (fun o g x e => by subst e; exact hE.1)
      (fun id a ns e => by subst e; exact hE.1)
    refine ⟨fun i m hx => h5 i m t ?_, Or.inl, Or.inl ht⟩
    obtain ⟨hx1, hx2⟩ := hx
    dsimp only at hx1 hx2
    rw [h1] at hx1
    rw [h2] at hx2
    refine ⟨?_, hx2⟩
    rcases hL with rfl | ⟨L, rfl⟩
    · exact hx1
    · exact hx1

/-- C129: what is stuck with the door account stays there for ever: no operation gives it to anybody. -/
theorem C129_stuck_forever {c : Cfg} {w v : World} {t : Nat} (h : Reach c NoRemap w) (hs : Stuck w t)
    (hl : Later c NoRemap w v) : Stuck v t := by
  induction hl with
  | refl => exact hs
  | @step v v' op hl hE hst ih =>
    rw [stuck_iff] at ih ⊢
    obtain ⟨h1, h2, h3⟩ := ih
    obtain ⟨h4, h5, h6⟩ := step_stands (hl.reach h).inv hE hst h1
    refine ⟨h6.resolve_right h3, fun i m hx => h2 i m (h4 i m hx), fun hx => ?_⟩
    rcases h5 hx with h7 | ⟨i, m, h7⟩
    · exact h3 h7
    · exact h2 i m h7

/-- Two tokens of issuer 5, taxon 9: an ordinary one, and one its issuer may burn. -/
def tokA : Nat := xrplId 8 0 5 9 17
def tokB : Nat := xrplId 9 0 5 9 18
def tokC : Nat := xrplId 8 0 6 4 17

/-- Account 3 has deposited a token. -/
def deposited : World := exec cfg0 g0 [.deposit 3 tokA]

theorem deposited_reach : Reach cfg0 NoRemap deposited :=
  exec_reach _ (.init g0_genesis) (by decide +kernel) (by decide +kernel)

/-- The case of `C129_deposit_partial`. -/
example : Env g0 (.deposit 3 tokA) ∧ (deposit cfg0 g0.st 3 tokA).2 = none ∧
    Nft.ownerOf deposited.st.nft 100 17 = some 3 ∧ deposited.st.ids 100 17 = some tokA ∧
    deposited.st.colls (5, 9) = some 100 := by
  refine ⟨checkOp_env (by decide +kernel), ?_, ?_, ?_, ?_⟩ <;> decide +kernel

/-- C129 is false: a token its issuer may burn is taken and nobody is given anything, for ever. -/
theorem C129_burnable_refuted : ∃ w w' : World, Reach cfg0 NoRemap w ∧ Env w (.deposit 3 tokB) ∧
    step cfg0 w (.deposit 3 tokB) = .ok w' ∧ ∀ v, Later cfg0 NoRemap w' v → Stuck v tokB := by
  refine ⟨deposited, _, deposited_reach, checkOp_env (by decide +kernel), rfl, fun v hv => ?_⟩
  have hE : Env deposited (.deposit 3 tokB) := checkOp_env (by decide +kernel)
  exact C129_stuck_forever (deposited_reach.step ⟨hE, fun l e => by cases e⟩ rfl)
    (C129_failed_stuck deposited_reach hE rfl (by decide +kernel)) hv

/-- C129 is false also for a token deposited while a storage migration is in progress. -/
theorem C129_migration_refuted : ∃ w w' : World, Reach cfg0 NoRemap w ∧ Env w (.deposit 3 tokA) ∧
    step cfg0 w (.deposit 3 tokA) = .ok w' ∧ ∀ v, Later cfg0 NoRemap w' v → Stuck v tokA := by
  have hr : Reach cfg0 NoRemap (exec cfg0 g0 [.migration true]) :=
    exec_reach _ (.init g0_genesis) (by decide +kernel) (by decide +kernel)
  have hE : Env (exec cfg0 g0 [.migration true]) (.deposit 3 tokA) := checkOp_env (by decide +kernel)
  refine ⟨_, _, hr, hE, rfl, fun v hv => ?_⟩
  exact C129_stuck_forever (hr.step ⟨hE, fun l e => by cases e⟩ rfl) (C129_failed_stuck hr hE rfl (by decide +kernel)) hv

/-! ## C130: withdrawals -/

/-- C130: a withdrawal succeeds exactly if the caller owns the token, it is not locked, may be burnt and has a
recorded XLS-20 id; it burns this token only, and makes one offer, for this id and the named account. -/
theorem C130_withdraw {c : Cfg} {w w' : World} {who : Acct} {id n dest : Nat} {ok : Bool} (h : Reach c NoRemap w)
    (hs : step c w (.withdraw who id n dest ok) = .ok w') :
    Nft.ownerOf w.st.nft id n = some who ∧ w.st.nft.locks id n = none ∧ Nft.ownerOf w'.st.nft id n = none ∧
    (∀ j m, (j, m) ≠ (id, n) → Nft.ownerOf w'.st.nft j m = Nft.ownerOf w.st.nft j m) ∧
    w'.st.nft.ledger = w.st.nft.ledger ∧
    ∃ t, w.st.ids id n = some t ∧ w'.offers = w.offers ++ [(t, dest)] := by
  have hi := h.inv
  simp only [Xls20.step, bind_ok, pure_ok, Prod.exists] at hs
  obtain ⟨s1, t1, d, hw, rfl⟩ := hs
  obtain ⟨_, _, rfl, hid, _, f, hf, rfl⟩ := withdraw_ok hw
  obtain ⟨k, hk, hown, hl, _, _, _, hc⟩ := NftPeg.doBurn_ok hf
  have hu := (hi.maps.nft.bi.coll id k hk).uniq
  have hr : Nft.Reach c.nft Nft.Bridged f := hi.maps.nft.step (op := .burn who id n) trivial hf
  have hex := NftPeg.burn_ex hi.maps.nft hf
  refine ⟨by rw [Nft.ownerOf_some hk]; exact (Nft.getOwner_iff hu).mpr hown, hl, ?_, ?_, ?_, t1, hid, rfl⟩
  · cases he : Nft.ownerOf f id n with
    | none => rfl
    | some a => exact absurd ⟨rfl, rfl⟩ ((hex id n).mp (ex_iff.mpr ⟨a, he⟩)).2
  · intro j m hne
    dsimp only
    by_cases hj : j = id
    · subst hj
      have hm : m ≠ n := fun e => hne (by rw [e])
      have hk' : f.coll j = some { k with
        issuance := k.issuance - 1
        owned := Nft.burnFrom k.owned who n } := by rw [hc, upd_same]
      have hu' := (hr.bi.coll j _ hk').uniq
      have hiff : ∀ a, Nft.getOwner (Nft.burnFrom k.owned who n) m = some a ↔ Nft.getOwner k.owned m = some a := by
        intro a
        rw [Nft.getOwner_iff hu', Nft.getOwner_iff hu]
        constructor
        · intro hx; exact ((Nft.burnFrom_owns a m).mp hx).1
        · intro hx; exact (Nft.burnFrom_owns a m).mpr ⟨hx, fun hx => hm hx.2⟩
      rw [Nft.ownerOf_some hk, Nft.ownerOf_some hk']
      exact Option.ext (fun a => hiff a)
    · unfold Nft.ownerOf
      rw [hc, upd_ne _ _ hj]
  · simp only [Nft.doBurn, bind_ok, ensure_ok, okOr_ok, pure_ok] at hf
    obtain ⟨_, _, _, _, _, _, _, _, rfl⟩ := hf
    rfl

/-- C130: nothing else stands in the way of a withdrawal. -/
theorem C130_can_withdraw {c : Cfg} {w : World} {who : Acct} {id n dest t : Nat} {k : Nft.Coll} (h : Reach c NoRemap w)
    (hk : w.st.nft.coll id = some k) (hx : k.xls20 = true) (hm : w.st.migrating = false)
    (hown : Nft.ownerOf w.st.nft id n = some who) (hl : w.st.nft.locks id n = none)
    (hf : (w.st.nft.flags id).burnable = true) (hid : w.st.ids id n = some t) :
    ∃ w', step c w (.withdraw who id n dest true) = .ok w' ∧ w'.offers = w.offers ++ [(t, dest)] := by
  have hi := h.inv
  have hu := (hi.maps.nft.bi.coll id k hk).uniq
  have ho : Nft.isTokenOwner k.owned who n = true := by
    rw [Nft.ownerOf_some hk] at hown
    exact Nft.isTokenOwner_iff.mpr ((Nft.getOwner_iff hu).mp hown)
  have hb : ∃ f, Nft.doBurn w.st.nft who id n = .ok f := by
    simp only [Nft.doBurn, bind_ok, ensure_ok, okOr_ok, pure_ok]
    exact ⟨_, (), hl, (), hf, k, hk, (), ho, rfl⟩
  obtain ⟨f, hb⟩ := hb
  have hw : withdraw w.st who id n dest true = .ok ({ w.st with nft := f }, (t, dest)) := by
    simp only [withdraw, idOf, bind_ok, ensure_ok, okOr_ok, pure_ok]
    exact ⟨k, hk, (), hx, f, hb, t, by rw [hm]; exact hid, (), trivial, rfl⟩
  refine ⟨{ w with
    st := { w.st with nft := f }
    offers := w.offers ++ [(t, dest)] }, ?_, rfl⟩
  simp only [Xls20.step, hw]
  rfl

/-- The case of both: account 3 withdraws its token to the XRPL account 77; account 4 cannot. -/
example : (step cfg0 deposited (.withdraw 3 100 17 77 true)).isOk = true ∧
    (step cfg0 deposited (.withdraw 4 100 17 77 true)).isOk = false ∧
    (exec cfg0 deposited [.withdraw 3 100 17 77 true]).offers = [(tokA, 77)] := by
  refine ⟨?_, ?_, ?_⟩ <;> decide +kernel

/-! ## C131: backing -/

/-- C131 holds while root does not map collections by hand: every XLS-20 token that a token on the chain stands for
or that is on offer is held by the door account; two tokens never stand for the same one, and none on offer is also
on the chain or on offer twice. -/
theorem C131_backed_partial {c : Cfg} {w : World} (h : Reach c NoRemap w) :
    (∀ id n a t, Nft.ownerOf w.st.nft id n = some a → w.st.ids id n = some t → w.door t = true) ∧
    (∀ id n a id' n' a' t, Nft.ownerOf w.st.nft id n = some a → w.st.ids id n = some t →
      Nft.ownerOf w.st.nft id' n' = some a' → w.st.ids id' n' = some t → id = id' ∧ n = n') ∧
    ∀ t ∈ w.offers.map Prod.fst, w.door t = true ∧ (w.offers.map Prod.fst).count t = 1 ∧
      ∀ id n a, Nft.ownerOf w.st.nft id n = some a → w.st.ids id n ≠ some t := by
  have hs := h.inv.safe
  refine ⟨fun id n a t h1 h2 => hs.held id n t ⟨ex_iff.mpr ⟨a, h1⟩, h2⟩, ?_, ?_⟩
  · intro id n a id' n' a' t h1 h2 h3 h4
    exact hs.one id n id' n' t ⟨ex_iff.mpr ⟨a, h1⟩, h2⟩ ⟨ex_iff.mpr ⟨a', h3⟩, h4⟩
  · intro t ht
    obtain ⟨h1, h2, h3⟩ := hs.offer t ht
    exact ⟨h1, h2, fun id n a h4 h5 => h3 id n ⟨ex_iff.mpr ⟨a, h4⟩, h5⟩⟩

/-- A history with deposits, a fulfilled request, an offer and an accepted offer. -/
def busy : World := exec cfg0 g0
  [.setRelayer 7, .nft (.create 1 0 none none none true), .nft (.mint 1 100 2 none true), .fulfil 7 100 [(0, tokC)],
    .deposit 3 tokA, .deposit 3 (xrplId 8 0 5 9 19), .withdraw 3 1124 17 77 true, .accept 0,
    .withdraw 1 100 0 78 true]

theorem busy_reach : Reach cfg0 NoRemap busy := exec_reach _ (.init g0_genesis) (by decide +kernel) (by decide +kernel)

/-- The case of `C131_backed_partial`. -/
example : busy.offers = [(tokC, 78)] ∧ busy.door tokC = true ∧ busy.door tokA = false ∧
    busy.st.ids 1124 19 = some (xrplId 8 0 5 9 19) ∧ Nft.ownerOf busy.st.nft 1124 19 = some 3 := by
  refine ⟨?_, ?_, ?_, ?_, ?_⟩ <;> decide +kernel

/-- C131 is false once root maps two XRPL collections to one: the second token with the same sequence number is
not minted, but the first one stands for it from then on. Its owner, account 3, withdraws the token account 4
deposited; account 4 has nothing. -/
theorem C131_remap_refuted : ∃ w w' : World, Reach cfg0 Env w ∧ w.seen = [tokC, tokA] ∧
    Nft.ownerOf w.st.nft 100 17 = some 3 ∧ w.st.ids 100 17 = some tokC ∧
    step cfg0 w (.withdraw 3 100 17 77 true) = .ok w' ∧ w'.offers = [(tokC, 77)] ∧
    ∀ k, w.st.nft.coll 100 = some k → ∀ a n, Owns k.owned a n → a = 3 := by
  refine ⟨exec cfg0 g0 [.deposit 3 tokA, .setMappings [(100, (6, 4))], .deposit 4 tokC],
    exec cfg0 g0 [.deposit 3 tokA, .setMappings [(100, (6, 4))], .deposit 4 tokC, .withdraw 3 100 17 77 true],
    exec_env _ (.init g0_genesis) (by decide +kernel), by decide +kernel, by decide +kernel, by decide +kernel, ?_,
    by decide +kernel, ?_⟩
  · rw [ok_getD (d := g0) (x := step cfg0 _ _) (by decide +kernel)]
    rfl
  · intro k hk a n ⟨e, he, hea, hen⟩
    have : k.owned.all (fun e => decide (e.serials = [] ∨ e.owner = 3)) = true := by
      have hx : ((exec cfg0 g0 [.deposit 3 tokA, .setMappings [(100, (6, 4))], .deposit 4 tokC]).st.nft.coll 100).map
          (fun k => k.owned.all (fun e => decide (e.serials = [] ∨ e.owner = 3))) = some true := by decide +kernel
      rw [hk] at hx
      simpa using hx
    rw [List.all_eq_true] at this
    have h1 := this e he
    rcases of_decide_eq_true h1 with h2 | h2
    · rw [h2] at hen
      cases hen
    · rw [← hea]
      exact h2

/-! ## C132: recorded ids -/

/-- C132: an XLS-20 id is recorded for a token only when that very token is deposited, or by the relayer for an
existing token that had none. -/
theorem C132_recorded_by {c : Cfg} {w w' : World} {op : Op} {id n t : Nat} (h : Reach c NoRemap w) (hE : NoRemap w op)
    (hs : step c w op = .ok w') (hnew : w.st.ids id n ≠ some t) (ht : w'.st.ids id n = some t) :
    (∃ rcv, op = .deposit rcv t ∧ seqOf t = n ∧ w'.st.colls (issuerOf t, taxonOf t) = some id) ∨
    ∃ who l a, op = .fulfil who id l ∧ w.st.relayer = some who ∧ (n, t) ∈ l ∧ w.st.ids id n = none ∧
      Nft.ownerOf w.st.nft id n = some a := by
  have hm := h.inv.maps
  cases op with
  | deposit rcv t0 =>
    cases hs
    dsimp only at ht ⊢
    rcases deposit_cases (rcv := rcv) (t := t0) hm with ⟨_, _, hids⟩ | ⟨s1, id0, he, hok1, hm1, hid, hids, hex, _, _⟩
    · rw [hids] at ht
      exact absurd ht hnew
    · rw [he] at ht ⊢
      have hcol : (mintInto c s1 rcv t0 id0).1.colls = s1.colls ∧
          ∀ j m, (mintInto c s1 rcv t0 id0).1.ids j m = s1.ids j m ∨ (j = id0 ∧ m = seqOf t0 ∧
            (mintInto c s1 rcv t0 id0).1.ids j m = some t0) := by
        unfold mintInto
        split
        · exact ⟨rfl, fun j m => Or.inl rfl⟩
        · refine ⟨rfl, fun j m => ?_⟩
          dsimp only
          by_cases hj : j = id0
          · subst hj
            by_cases hm : m = seqOf t0
            · subst hm
              exact Or.inr ⟨rfl, rfl, by rw [upd_same, upd_same]⟩
            · exact Or.inl (by rw [upd_same, upd_ne _ _ hm])
          · exact Or.inl (by rw [upd_ne _ _ hj])
      rcases hcol.2 id n with h1 | ⟨rfl, rfl, h1⟩
      · rw [h1, hids] at ht
        exact absurd ht hnew
      · rw [h1] at ht
        cases ht
        exact Or.inl ⟨rcv, rfl, rfl, by rw [hcol.1]; exact hid⟩
  | withdraw who id' n' dest ok =>
    simp only [Xls20.step, bind_ok, pure_ok, Prod.exists] at hs
    obtain ⟨s1, t1, d, hw, rfl⟩ := hs
    obtain ⟨_, _, _, hid, _, f, hf, rfl⟩ := withdraw_ok hw
    exact absurd ht hnew
  | accept i =>
    simp only [Xls20.step, bind_ok, okOr_ok, pure_ok] at hs
    obtain ⟨o, ho, rfl⟩ := hs
    exact absurd ht hnew
  | reRequest who id' ns =>
    simp only [Xls20.step, bind_ok, pure_ok] at hs
    obtain ⟨s1, hr, rfl⟩ := hs
    obtain ⟨_, _, _, L, hL, rfl⟩ := reRequest_ok hr
    exact absurd ht hnew
  | fulfil who id' l =>
    simp only [Xls20.step, bind_ok, pure_ok] at hs
    obtain ⟨s1, hr, rfl⟩ := hs
    obtain ⟨_, _, hrel, _, k, f, hk, hins, rfl⟩ := fulfil_ok hr
    obtain ⟨h1, _, h3⟩ := insertAll_ok hins
    dsimp only at ht
    rcases h3 id n with h4 | ⟨rfl, h5, t', h6, h7⟩
    · rw [h4] at ht
      exact absurd ht hnew
    · rw [h7] at ht
      cases ht
      obtain ⟨a, ha⟩ := Nft.tokenExists_iff.mp (h1 _ h6).1
      obtain ⟨b, hb⟩ := ex_iff.mp ⟨k, hk, a, ha⟩
      exact Or.inr ⟨who, l, b, rfl, hrel, h6, h5, hb⟩
  | setRelayer r => cases hs; exact absurd ht hnew
  | setFee f => cases hs; exact absurd ht hnew
  | setMappings l => exact absurd rfl (hE.2 l)
  | migration b => cases hs; exact absurd ht hnew
  | nft op =>
    simp only [Xls20.step, bind_ok, pure_ok] at hs
    obtain ⟨s1, hr, rfl⟩ := hs
    obtain ⟨n, n', hn, hL, h1, h2, h3, _⟩ := nftStep_ok hr
    dsimp only at ht
    rw [h2] at ht
    exact absurd ht hnew

/-- C132 holds while root does not map collections by hand: a recorded XLS-20 id never changes. -/
theorem C132_fixed_partial {c : Cfg} {w v : World} {id n t : Nat} (h : Reach c NoRemap w) (ht : w.st.ids id n = some t)
    (hl : Later c NoRemap w v) : v.st.ids id n = some t := by
  induction hl with
  | refl => exact ht
  | @step v v' op hl hE hst ih =>
    have hr := hl.reach h
    by_cases hx : v'.st.ids id n = some t
    · exact hx
    exfalso
    have hm := hr.inv.maps
    cases he : v'.st.ids id n with
    | none =>
      have key : v'.st.ids = v.st.ids ∨ v'.st.ids id n ≠ none := by
        cases op with
        | deposit rcv t0 =>
          cases hst
          dsimp only at he ⊢
          rcases deposit_cases (rcv := rcv) (t := t0) hm with ⟨_, _, hids⟩ | ⟨s1, id0, he0, _, _, _, hids, _⟩
          · exact Or.inl hids
          · refine Or.inr ?_
            rw [he0]
            unfold mintInto
            split
            · rw [hids, ih]; simp
            · dsimp only
              by_cases hj : id = id0
              · subst hj
                by_cases hn : n = seqOf t0
                · subst hn; rw [upd_same, upd_same]; simp
                · rw [upd_same, upd_ne _ _ hn, hids, ih]; simp
              · rw [upd_ne _ _ hj, hids, ih]; simp
        | withdraw who id' n' dest ok =>
          simp only [Xls20.step, bind_ok, pure_ok, Prod.exists] at hst
          obtain ⟨s1, t1, d, hw, rfl⟩ := hst
          obtain ⟨_, _, _, _, _, f, hf, rfl⟩ := withdraw_ok hw
          exact Or.inl rfl
        | accept i =>
          simp only [Xls20.step, bind_ok, okOr_ok, pure_ok] at hst
          obtain ⟨o, ho, rfl⟩ := hst
          exact Or.inl rfl
        | reRequest who id' ns =>
          simp only [Xls20.step, bind_ok, pure_ok] at hst
          obtain ⟨s1, hr, rfl⟩ := hst
          obtain ⟨_, _, _, L, hL, rfl⟩ := reRequest_ok hr
          exact Or.inl rfl
        | fulfil who id' l =>
          simp only [Xls20.step, bind_ok, pure_ok] at hst
          obtain ⟨s1, hr, rfl⟩ := hst
          obtain ⟨_, _, _, _, k, f, hk, hins, rfl⟩ := fulfil_ok hr
          obtain ⟨_, _, h3⟩ := insertAll_ok hins
          refine Or.inr ?_
          dsimp only
          rcases h3 id n with h4 | ⟨_, _, t', _, h7⟩
          · rw [h4, ih]; simp
          · rw [h7]; simp
        | setRelayer r => cases hst; exact Or.inl rfl
        | setFee f => cases hst; exact Or.inl rfl
        | setMappings l => exact absurd rfl (hE.2 l)
        | migration b => cases hst; exact Or.inl rfl
        | nft op =>
          simp only [Xls20.step, bind_ok, pure_ok] at hst
          obtain ⟨s1, hr, rfl⟩ := hst
          obtain ⟨n, n', hn, hL, h1, h2, h3, _⟩ := nftStep_ok hr
          exact Or.inl h2
      rcases key with h1 | h1
      · rw [h1, ih] at he
        cases he
      · exact h1 he
    | some t' =>
      have hne : v.st.ids id n ≠ some t' := by
        intro e
        rw [ih] at e
        cases e
        exact hx he
      rcases C132_recorded_by hr hE hst hne he with ⟨rcv, rfl, hseq, hcol⟩ | ⟨who, l, a, _, _, _, hnone, _⟩
      · cases hst
        dsimp only at he hcol
        rcases deposit_cases (rcv := rcv) (t := t') hm with ⟨_, _, hids⟩ | ⟨s1, id0, he0, _, hm1, hid, hids, _⟩
        · rw [hids] at he
          exact hne he
        · have hcol' : s1.colls (keyOf t') = some id := by
            rw [he0] at hcol
            have : (mintInto c s1 rcv t' id0).1.colls = s1.colls := by
              unfold mintInto
              split <;> rfl
            rw [this] at hcol
            exact hcol
          obtain ⟨k, hk, ho⟩ := hm1.xrpl _ _ hcol'
          obtain ⟨k2, hk2, _, _, h3⟩ := hm1.native id n t (by rw [hids]; exact ih)
          rw [hk] at hk2
          cases hk2
          obtain ⟨h5, h6, h7⟩ := h3 ho
          have := hE.1.2 t h7 (congrArg Prod.fst (hm1.inj _ _ _ h5 hcol')) (h6.trans hseq.symm)
          rw [this] at ih
          exact hne ih
      · rw [ih] at hnone
        cases hnone

end Verif.Xls20
