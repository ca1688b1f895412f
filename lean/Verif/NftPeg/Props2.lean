import Verif.NftPeg.Props

/-!
# Properties of the ERC-721 bridge: records, withdrawals and backing
-/

namespace Verif.NftPeg

open Nft (Owns)

/-! ## C60: records of blocked deposits -/

/-- **C60** (records). A record can be used by the receiver it names and by nobody else, as long as the bridge
accepts messages. -/
theorem C60_reclaim_only_receiver {c : Cfg} {w : World} (h : Reach c Env w) {b : Nat} {r : Blocked}
    (hr : w.st.blocked b = some r) (who : Acct) (dest : Nat) :
    (∃ w', step c w (.reclaim who b dest true) = .ok w') ↔ who = r.dest := by
  constructor
  · rintro ⟨w', hs⟩
    simp only [NftPeg.step, bind_ok, pure_ok] at hs
    obtain ⟨⟨s1, m⟩, h1, _⟩ := hs
    obtain ⟨r', _, hr', hd, _⟩ := reclaim_ok h1
    rw [hr] at hr'
    cases hr'
    exact hd.symm
  · rintro rfl
    obtain ⟨a, ha⟩ := h.inv.maps.bl b r hr
    obtain ⟨k, hk, hg⟩ := h.inv.maps.coll ha
    have h1 : withdrawColl w.st r.dest (some b) r.coll r.serials =
        .ok ({ w.st with blocked := upd w.st.blocked b none }, a, r.serials) := by
      simp only [withdrawColl, takeBlocked, bind_ok, ensure_ok, okOr_ok, pure_ok]
      exact ⟨k, hk, (), hg, _, ⟨r, hr, rfl⟩, a, ha, rfl⟩
    simp only [NftPeg.step, reclaim, doWithdrawal, bind_ok, ensure_ok, okOr_ok, pure_ok, withdrawLoop,
      List.zip_cons_cons, List.zip_nil_left]
    exact ⟨_, _, ⟨r, hr, (), rfl, (), rfl, _, ⟨_, h1, _, rfl, rfl⟩, (), trivial, rfl⟩, rfl⟩

/-- **C60** (records). Using a record sends the recorded ids of the right contract back to the address asked
for, and uses the record up. -/
theorem C60_reclaim_sends_back {c : Cfg} {w w' : World} (h : Reach c Env w) {b : Nat} {r : Blocked}
    (hr : w.st.blocked b = some r) {who : Acct} {dest : Nat} {ok : Bool}
    (hs : step c w (.reclaim who b dest ok) = .ok w') :
    (∃ a, w.st.toRoot a = some r.coll ∧ w'.pending = w.pending ++ [⟨w.st.contract, [(a, r.serials)], dest⟩]) ∧
      w'.st.blocked b = none ∧ (∀ i, i ≠ b → w'.st.blocked i = w.st.blocked i) ∧ w'.st.nft = w.st.nft := by
  simp only [NftPeg.step, bind_ok, pure_ok] at hs
  obtain ⟨⟨s1, m⟩, h1, rfl⟩ := hs
  obtain ⟨r', a, hr', _, ha, _, rfl, rfl⟩ := reclaim_ok h1
  rw [hr] at hr'
  cases hr'
  exact ⟨⟨a, h.inv.maps.eth _ _ ha, rfl⟩, upd_same _ _ _, fun i hi => upd_ne _ _ hi, rfl⟩

theorem loop_blocked {who : Acct} : ∀ (l : List (Nat × List Nat)) {s s' : St} {gs : List (Nat × List Nat)},
    withdrawLoop who none s l = .ok (s', gs) → s'.blocked = s.blocked ∧ s'.nextBlocked = s.nextBlocked ∧
      s'.toRoot = s.toRoot ∧ s'.toEth = s.toEth ∧ s'.contract = s.contract
  | [], s, s', gs, h => by
    cases h
    exact ⟨rfl, rfl, rfl, rfl, rfl⟩
  | (id, ns) :: l, s, s', gs, h => by
    simp only [withdrawLoop, bind_ok, pure_ok] at h
    obtain ⟨⟨s1, g⟩, h1, ⟨s2, gs'⟩, h2, he⟩ := h
    cases he
    obtain ⟨_, _, _, nft, _, rfl⟩ := withdrawColl_ok h1
    exact loop_blocked l (s := { s with nft := nft }) h2

/-- A deposit adds at most one record, with the next number. -/
theorem group_blocked {c : Cfg} {s : St} (hm : Maps c s) {dest : Acct} {g : Nat × List Nat} :
    ((depositGroup c s dest g).1.blocked = s.blocked ∧ (depositGroup c s dest g).1.nextBlocked = s.nextBlocked) ∨
    ((depositGroup c s dest g).2 ≠ none ∧
      (∃ r, (depositGroup c s dest g).1.blocked = upd s.blocked s.nextBlocked (some r)) ∧
      (depositGroup c s dest g).1.nextBlocked = (s.nextBlocked + 1) % U32) := by
  unfold depositGroup
  cases hc : collFor c s g.1 dest with
  | error e => exact Or.inl ⟨rfl, rfl⟩
  | ok r =>
    obtain ⟨s1, id⟩ := r
    obtain ⟨_, _, _, hb, hn, _⟩ := collFor_ok hm hc
    dsimp only
    cases hmint : Nft.bridgedMint c.nft s1.nft id dest g.2 with
    | ok n' => exact Or.inl ⟨hb, hn⟩
    | error e =>
      dsimp only
      unfold block
      split
      · refine Or.inr ⟨nofun, ⟨⟨id, dest, g.2⟩, ?_⟩, ?_⟩
        · show upd s1.blocked s1.nextBlocked _ = _
          rw [hb, hn]
        · show (s1.nextBlocked + 1) % U32 = _
          rw [hn]
      · exact Or.inl ⟨hb, hn⟩

theorem deposit_blocked {c : Cfg} {dest : Acct} : ∀ (gs : List (Nat × List Nat)) {s : St}, Maps c s →
    ((doDeposit c dest s gs).1.blocked = s.blocked ∧ (doDeposit c dest s gs).1.nextBlocked = s.nextBlocked) ∨
    ((∃ r, (doDeposit c dest s gs).1.blocked = upd s.blocked s.nextBlocked (some r)) ∧
      (doDeposit c dest s gs).1.nextBlocked = (s.nextBlocked + 1) % U32)
  | [], _, _ => Or.inl ⟨rfl, rfl⟩
  | g :: gs, s, hm => by
    unfold doDeposit
    have hg := group_blocked (dest := dest) (g := g) hm
    have hmg := hm.group (dest := dest) (g := g)
    cases hd : depositGroup c s dest g with
    | mk s1 o =>
      rw [hd] at hg hmg
      cases o with
      | none =>
        dsimp only
        rcases hg with ⟨h1, h2⟩ | ⟨h1, _⟩
        · dsimp only at h1 h2
          rw [← h1, ← h2]
          exact deposit_blocked gs hmg
        · exact absurd rfl h1
      | some e =>
        rcases hg with h1 | ⟨_, h2⟩
        · exact Or.inl h1
        · exact Or.inr h2

theorem event_blocked {c : Cfg} {s : St} (hm : Maps c s) (e : Event) :
    ((onEvent c s e).1.blocked = s.blocked ∧ (onEvent c s e).1.nextBlocked = s.nextBlocked) ∨
    ((∃ r, (onEvent c s e).1.blocked = upd s.blocked s.nextBlocked (some r)) ∧
      (onEvent c s e).1.nextBlocked = (s.nextBlocked + 1) % U32) := by
  unfold onEvent
  split
  · exact Or.inl ⟨rfl, rfl⟩
  · exact Or.inl ⟨rfl, rfl⟩
  · rename_i addrs ids dest
    cases hd : decode c addrs ids with
    | error _ => exact Or.inl ⟨rfl, rfl⟩
    | ok gs => exact deposit_blocked gs hm
  · exact Or.inl ⟨rfl, rfl⟩
  · exact Or.inl ⟨rfl, rfl⟩

/-- What a step does to the records. -/
theorem step_blocked {c : Cfg} {w w' : World} {op : Op} (h : Reach c Env w) (hs : step c w op = .ok w') :
    (w'.st.blocked = w.st.blocked ∧ w'.st.nextBlocked = w.st.nextBlocked) ∨
    (∃ e, op = .deposit e ∧ (∃ r, w'.st.blocked = upd w.st.blocked w.st.nextBlocked (some r)) ∧
      w'.st.nextBlocked = (w.st.nextBlocked + 1) % U32) ∨
    (∃ who b dest ok r, op = .reclaim who b dest ok ∧ w.st.blocked b = some r ∧ r.dest = who ∧
      w'.st.blocked = upd w.st.blocked b none ∧ w'.st.nextBlocked = w.st.nextBlocked) := by
  cases op with
  | deposit e =>
    cases hs
    rcases event_blocked h.inv.maps e with h1 | h1
    · exact Or.inl h1
    · exact Or.inr (Or.inl ⟨e, rfl, h1⟩)
  | withdraw who colls serials dest ok =>
    simp only [NftPeg.step, bind_ok, pure_ok] at hs
    obtain ⟨⟨s1, m⟩, h1, rfl⟩ := hs
    obtain ⟨_, _, _, _, hl⟩ := withdraw_ok h1
    have := loop_blocked _ hl
    exact Or.inl ⟨this.1, this.2.1⟩
  | reclaim who b dest ok =>
    simp only [NftPeg.step, bind_ok, pure_ok] at hs
    obtain ⟨⟨s1, m⟩, h1, rfl⟩ := hs
    obtain ⟨r, a, hr, hd, _, _, rfl, _⟩ := reclaim_ok h1
    exact Or.inr (Or.inr ⟨who, b, dest, ok, r, rfl, hr, hd, rfl, rfl⟩)
  | setContract a => cases hs; exact Or.inl ⟨rfl, rfl⟩
  | nft op =>
    simp only [NftPeg.step, bind_ok, pure_ok] at hs
    obtain ⟨n, _, rfl⟩ := hs
    exact Or.inl ⟨rfl, rfl⟩
  | deliver i =>
    simp only [NftPeg.step, bind_ok, okOr_ok, pure_ok] at hs
    obtain ⟨m, _, rfl⟩ := hs
    exact Or.inl ⟨rfl, rfl⟩

/-- Records have numbers that were given out. -/
theorem Reach.numbers {c : Cfg} {w : World} (h : Reach c NoWrap w) {i : Nat} {r : Blocked}
    (hr : w.st.blocked i = some r) : i < w.st.nextBlocked := by
  induction h generalizing i r with
  | init hg =>
    rw [hg.blocked] at hr
    cases hr
  | @step w w' op h0 hG hs ih =>
    rcases step_blocked h0.env hs with ⟨h1, h2⟩ | ⟨e, _, ⟨q, h1⟩, h2⟩ | ⟨_, b, _, _, _, _, _, _, h1, h2⟩
    · rw [h1] at hr
      rw [h2]
      exact ih hr
    · have := hG.2
      rw [h2, Nat.mod_eq_of_lt this]
      rw [h1] at hr
      by_cases hi : i = w.st.nextBlocked
      · omega
      · rw [upd_ne _ _ hi] at hr
        have := ih hr
        omega
    · rw [h1] at hr
      rw [h2]
      by_cases hi : i = b
      · subst hi; rw [upd_same] at hr; cases hr
      · rw [upd_ne _ _ hi] at hr
        exact ih hr

/-- **C60** (records). A record stays as it is until the receiver it names uses it. -/
theorem C60_record_kept {c : Cfg} {w w' : World} (h : Reach c NoWrap w) {op : Op} (hs : step c w op = .ok w')
    {b : Nat} {r : Blocked} (hr : w.st.blocked b = some r)
    (hop : ∀ dest ok, op ≠ .reclaim r.dest b dest ok) : w'.st.blocked b = some r := by
  rcases step_blocked h.env hs with ⟨h1, _⟩ | ⟨e, _, ⟨q, h1⟩, _⟩ | ⟨who, b', dest, ok, q, rfl, hq, hd, h1, _⟩
  · rw [h1, hr]
  · have := h.numbers hr
    rw [h1, upd_ne _ _ (by omega), hr]
  · have hne : b ≠ b' := by
      rintro rfl
      rw [hr] at hq
      cases hq
      exact hop dest ok (by rw [hd])
    rw [h1, upd_ne _ _ hne, hr]

/-- **C60** (records). A record that was used can never be used again. -/
theorem C60_reclaim_once {c : Cfg} {w w1 w2 : World} (h : Reach c NoWrap w) {b : Nat} {who : Acct} {dest : Nat}
    {ok : Bool} (hG : NoWrap w (.reclaim who b dest ok)) (hs : step c w (.reclaim who b dest ok) = .ok w1)
    (hl : Later c NoWrap w1 w2) (who' : Acct) (dest' : Nat) (ok' : Bool) :
    ¬ ∃ w3, step c w2 (.reclaim who' b dest' ok') = .ok w3 := by
  have h1 := h.step hG hs
  have hgone : w1.st.blocked b = none ∧ b < w1.st.nextBlocked := by
    simp only [NftPeg.step, bind_ok, pure_ok] at hs
    obtain ⟨⟨s1, m⟩, h2, rfl⟩ := hs
    obtain ⟨r, a, hr, _, _, _, rfl, _⟩ := reclaim_ok h2
    exact ⟨upd_same _ _ _, h.numbers hr⟩
  have hkeep : w2.st.blocked b = none ∧ b < w2.st.nextBlocked := by
    induction hl with
    | refl => exact hgone
    | @step wa wb op hl0 hG' hs' ih =>
      have hra := h1.later hl0
      rcases step_blocked hra.env hs' with ⟨e1, e2⟩ | ⟨e, _, ⟨q, e1⟩, e2⟩ | ⟨_, b', _, _, _, _, _, _, e1, e2⟩
      · rw [e1, e2]; exact ih
      · have hw := hG'.2
        rw [e1, e2, Nat.mod_eq_of_lt hw]
        rw [upd_ne _ _ (by omega)]
        exact ⟨ih.1, by omega⟩
      · rw [e1, e2]
        refine ⟨?_, ih.2⟩
        by_cases hb : b = b'
        · subst hb; exact upd_same _ _ _
        · rw [upd_ne _ _ hb]; exact ih.1
  rintro ⟨w3, h3⟩
  simp only [NftPeg.step, bind_ok, pure_ok] at h3
  obtain ⟨⟨s1, m⟩, h2, rfl⟩ := h3
  obtain ⟨r, _, hr, _⟩ := reclaim_ok h2
  rw [hkeep.1] at hr
  cases hr

/-! ## C128: withdrawals -/

/-- Who owns what after tokens of one collection are burnt. -/
theorem burnAll_ok {c : Cfg} {who : Acct} {id : Nat} : ∀ (ns : List Nat) {s : St} {nft : Nft.St}, Maps c s →
    burnAll who id s.nft ns = .ok nft → Maps c { s with nft := nft } ∧
      (∀ n ∈ ns, Nft.ownerOf s.nft id n = some who ∧ s.nft.locks id n = none) ∧ nft.locks = s.nft.locks ∧
      (∀ j m, Ex nft j m ↔ Ex s.nft j m ∧ ¬ (j = id ∧ m ∈ ns)) ∧
      (∀ j m a, Nft.ownerOf nft j m = some a → Nft.ownerOf s.nft j m = some a)
  | [], s, nft, hm, h => by
    cases h
    exact ⟨hm, nofun, rfl, fun j m => ⟨fun h => ⟨h, fun hx => nomatch hx.2⟩, fun h => h.1⟩, fun _ _ _ h => h⟩
  | n :: ns, s, nft, hm, h => by
    simp only [burnAll, bind_ok] at h
    obtain ⟨n1, h1, h2⟩ := h
    have hm1 := hm.burn h1
    obtain ⟨g1, g2, g3, g4, g5⟩ := burnAll_ok ns (s := { s with nft := n1 }) hm1 h2
    have hex := burn_ex hm.nft h1
    obtain ⟨k, hk, ho, hl, _, hlk, _, hcoll⟩ := doBurn_ok h1
    have hu := (hm.nft.bi.coll id k hk).uniq
    have hown : ∀ j m a, Nft.ownerOf n1 j m = some a → Nft.ownerOf s.nft j m = some a := by
      intro j m a hx
      by_cases hj : j = id
      · subst hj
        rw [Nft.ownerOf_some (by rw [hcoll, upd_same])] at hx
        rw [Nft.ownerOf_some hk]
        exact (Nft.getOwner_iff hu).mpr ((Nft.burnFrom_owns a m).mp (Nft.getOwner_owns hx)).1
      · unfold Nft.ownerOf at hx ⊢
        rw [hcoll, upd_ne _ _ hj] at hx
        exact hx
    dsimp only at g2 g3 g4 g5
    refine ⟨g1, ?_, g3.trans hlk, ?_, fun j m a hx => hown j m a (g5 j m a hx)⟩
    · intro m hmem
      rcases List.mem_cons.mp hmem with rfl | hmem
      · exact ⟨by rw [Nft.ownerOf_some hk]; exact (Nft.getOwner_iff hu).mpr ho, hl⟩
      · exact ⟨hown _ _ _ (g2 m hmem).1, by rw [← hlk]; exact (g2 m hmem).2⟩
    · intro j m
      rw [g4, hex]
      constructor
      · rintro ⟨⟨h3, h4⟩, h5⟩
        refine ⟨h3, fun hx => ?_⟩
        rcases List.mem_cons.mp hx.2 with h6 | h6
        · exact h4 ⟨hx.1, h6⟩
        · exact h5 ⟨hx.1, h6⟩
      · rintro ⟨h3, h4⟩
        exact ⟨⟨h3, fun hx => h4 ⟨hx.1, by rw [hx.2]; exact List.mem_cons_self ..⟩⟩,
          fun hx => h4 ⟨hx.1, List.mem_cons_of_mem _ hx.2⟩⟩

theorem loop_ok {c : Cfg} {who : Acct} : ∀ (l : List (Nat × List Nat)) {s s' : St} {gs : List (Nat × List Nat)},
    Maps c s → withdrawLoop who none s l = .ok (s', gs) → Maps c s' ∧
      List.Forall₂ (fun p g => s.toRoot g.1 = some p.1 ∧ g.2 = p.2) l gs ∧
      (∀ p ∈ l, ∀ n ∈ p.2, Nft.ownerOf s.nft p.1 n = some who ∧ s.nft.locks p.1 n = none) ∧
      s'.nft.locks = s.nft.locks ∧
      (∀ j m, Ex s'.nft j m ↔ Ex s.nft j m ∧ (j, m) ∉ toks l) ∧
      (∀ j m a, Nft.ownerOf s'.nft j m = some a → Nft.ownerOf s.nft j m = some a)
  | [], s, s', gs, hm, h => by
    cases h
    exact ⟨hm, .nil, nofun, rfl, fun j m => ⟨fun h => ⟨h, fun hx => nomatch hx⟩, fun h => h.1⟩, fun _ _ _ h => h⟩
  | (id, ns) :: l, s, s', gs, hm, h => by
    have hall := h
    simp only [withdrawLoop, bind_ok, pure_ok] at h
    obtain ⟨⟨s1, g⟩, h1, ⟨s2, gs'⟩, h2, he⟩ := h
    cases he
    obtain ⟨_, ha, hns, nft, hb, rfl⟩ := withdrawColl_ok h1
    obtain ⟨b1, b2, b3, b4, b5⟩ := burnAll_ok ns hm hb
    obtain ⟨l1, l2, l3, l4, l5, l6⟩ := loop_ok l b1 h2
    dsimp only at l2 l3 l4 l5 l6
    refine ⟨l1, .cons ⟨hm.eth id g.1 ha, hns⟩ l2, ?_, l4.trans b3, ?_, fun j m a hx => b5 j m a (l6 j m a hx)⟩
    · intro p hp n hn
      rcases List.mem_cons.mp hp with rfl | hp
      · exact b2 n hn
      · exact ⟨b5 _ _ _ (l3 p hp n hn).1, by rw [← b3]; exact (l3 p hp n hn).2⟩
    · intro j m
      rw [l5, b4, toks_cons, List.mem_append, mem_toks_one]
      constructor
      · rintro ⟨⟨h3, h4⟩, h5⟩; exact ⟨h3, fun hx => hx.elim h4 h5⟩
      · rintro ⟨h3, h4⟩; exact ⟨⟨h3, fun hx => h4 (Or.inl hx)⟩, fun hx => h4 (Or.inr hx)⟩

/-- The tokens of a withdrawal, as pairs of collection and token id. -/
def Asked (colls : List Nat) (serials : List (List Nat)) (coll n : Nat) : Prop :=
  ∃ ns, (coll, ns) ∈ colls.zip serials ∧ n ∈ ns

/-- What a withdrawal does to the state of the pallet, and what it says. -/
theorem withdraw_effect {c : Cfg} {s s1 : St} (hm : Maps c s) {who : Acct} {colls : List Nat}
    {serials : List (List Nat)} {dest : Nat} {ok : Bool} {m : Msg}
    (h1 : withdraw c s who colls serials dest ok = .ok (s1, m)) :
    (∃ gs, m = ⟨s.contract, gs, dest⟩ ∧
      List.Forall₂ (fun id g => s.toRoot g.1 = some id) colls gs ∧ gs.map Prod.snd = serials) ∧
    (∀ coll n, Asked colls serials coll n → Nft.ownerOf s.nft coll n = some who ∧ s.nft.locks coll n = none ∧
      Nft.ownerOf s1.nft coll n = none) ∧
    (∀ coll n, ¬ Asked colls serials coll n → Nft.ownerOf s1.nft coll n = Nft.ownerOf s.nft coll n) ∧
    s1.blocked = s.blocked ∧ Maps c s1 := by
  obtain ⟨hlen, _, hd, hcon, hl⟩ := withdraw_ok h1
  obtain ⟨g1, g2, g3, _, g5, g6⟩ := loop_ok _ hm hl
  have hb := loop_blocked _ hl
  have hown : ∀ {s : Nft.St} {j m : Nat}, Ex s j m ↔ ∃ a, Nft.ownerOf s j m = some a := by
    intro s j m
    rw [Nft.ownerOf_exists]
    constructor
    · rintro ⟨k, hk, a, ha⟩; exact ⟨k, a, hk, ha⟩
    · rintro ⟨k, a, hk, ha⟩; exact ⟨k, hk, a, ha⟩
  have hask : ∀ j m, (j, m) ∈ toks (colls.zip serials) ↔ Asked colls serials j m := by
    intro j m
    rw [mem_toks]
    constructor
    · rintro ⟨g, hg, e1, e2⟩
      dsimp only at e1 e2
      subst e1
      exact ⟨g.2, hg, e2⟩
    · rintro ⟨ns, hg, e2⟩; exact ⟨_, hg, rfl, e2⟩
  refine ⟨⟨m.groups, ?_, ?_, ?_⟩, ?_, ?_, hb.1, g1⟩
  · rw [← hd, ← hb.2.2.2.2, ← hcon]
  · have e : (colls.zip serials).map Prod.fst = colls := List.map_fst_zip (by omega)
    conv => arg 2; rw [← e]
    rw [List.forall₂_map_left_iff]
    exact g2.imp (fun _ _ hx => hx.1)
  · have e : (colls.zip serials).map Prod.snd = serials := List.map_snd_zip (by omega)
    rw [← e]
    clear e hask g5 g3 hl
    generalize colls.zip serials = L at g2 ⊢
    generalize m.groups = M at g2 ⊢
    induction g2 with
    | nil => rfl
    | cons hx _ ih => rw [List.map_cons, List.map_cons, hx.2, ih]
  · rintro j n ⟨ns, hin, hn⟩
    refine ⟨(g3 (j, ns) hin n hn).1, (g3 (j, ns) hin n hn).2, ?_⟩
    cases ho : Nft.ownerOf s1.nft j n with
    | none => rfl
    | some a => exact absurd ((hask j n).mpr ⟨ns, hin, hn⟩) ((g5 j n).mp (hown.mpr ⟨a, ho⟩)).2
  · intro j n hna
    cases ho : Nft.ownerOf s1.nft j n with
    | some a => exact (g6 j n a ho).symm
    | none =>
      cases ho' : Nft.ownerOf s.nft j n with
      | none => rfl
      | some a =>
        obtain ⟨b, hb'⟩ := hown.mp ((g5 j n).mpr ⟨hown.mpr ⟨a, ho'⟩, fun hx => hna ((hask j n).mp hx)⟩)
        rw [ho] at hb'
        cases hb'

/-- **C60**, **C128**. A withdrawal takes only tokens of the caller that are not locked, removes exactly these
from the chain, and sends exactly their ids, with the contract each collection stands for, to the address asked
for. -/
theorem C128_withdraw {c : Cfg} {w w' : World} (h : Reach c Env w) {who : Acct} {colls : List Nat}
    {serials : List (List Nat)} {dest : Nat} {ok : Bool}
    (hs : step c w (.withdraw who colls serials dest ok) = .ok w') :
    (∃ gs, w'.pending = w.pending ++ [⟨w.st.contract, gs, dest⟩] ∧
      List.Forall₂ (fun id g => w.st.toRoot g.1 = some id) colls gs ∧ gs.map Prod.snd = serials) ∧
    (∀ coll n, Asked colls serials coll n → Nft.ownerOf w.st.nft coll n = some who ∧ w.st.nft.locks coll n = none ∧
      Nft.ownerOf w'.st.nft coll n = none) ∧
    (∀ coll n, ¬ Asked colls serials coll n → Nft.ownerOf w'.st.nft coll n = Nft.ownerOf w.st.nft coll n) ∧
    w'.st.blocked = w.st.blocked := by
  simp only [NftPeg.step, bind_ok, pure_ok] at hs
  obtain ⟨⟨s1, m⟩, h1, rfl⟩ := hs
  obtain ⟨⟨gs, rfl, h2, h3⟩, h4, h5, h6, _⟩ := withdraw_effect h.inv.maps h1
  exact ⟨⟨gs, rfl, h2, h3⟩, h4, h5, h6⟩

/-! ## C127: backing -/

/-- The places where a token of an ERC-721 contract can be. -/
inductive Place where
  /-- on the chain, with this owner -/
  | chain (coll : Nat) (owner : Acct)
  /-- in a record -/
  | record (i : Nat)
  /-- in a message under way: which one, which group of it, which place in the group -/
  | message (i j k : Nat)

/-- Token `n` of the contract `a` is at a place. -/
def At (w : World) (a n : Nat) : Place → Prop
  | .chain coll owner => w.st.toRoot a = some coll ∧ Nft.ownerOf w.st.nft coll n = some owner
  | .record i => ∃ r, w.st.blocked i = some r ∧ w.st.toRoot a = some r.coll ∧ n ∈ r.serials
  | .message i j k => ∃ m g, w.pending[i]? = some m ∧ m.groups[j]? = some g ∧ g.1 = a ∧ g.2[k]? = some n

theorem count_le_flatMap {α β : Type} [BEq β] [LawfulBEq β] {L : List α} {f : α → List β} {x : α} (h : x ∈ L) (p : β) :
    (f x).count p ≤ (L.flatMap f).count p := by
  obtain ⟨A, B, rfl⟩ := List.append_of_mem h
  rw [List.flatMap_append, List.flatMap_cons, List.count_append, List.count_append]
  omega

theorem two_le_flatMap {α β : Type} [BEq β] [LawfulBEq β] {L : List α} {f : α → List β} {i j : Nat} {x y : α}
    {p : β} (hi : L[i]? = some x) (hj : L[j]? = some y) (hne : i < j) (hx : p ∈ f x) (hy : p ∈ f y) :
    2 ≤ (L.flatMap f).count p := by
  rw [← List.take_append_drop j L, List.flatMap_append, List.count_append]
  have h1 : x ∈ L.take j := by
    refine List.mem_of_getElem? (i := i) ?_
    rw [List.getElem?_take, if_pos hne, hi]
  have h2 : y ∈ L.drop j := by
    refine List.mem_of_getElem? (i := 0) ?_
    rw [List.getElem?_drop, Nat.add_zero, hj]
  have h3 : 0 < ((L.take j).flatMap f).count p := List.count_pos_iff.mpr (List.mem_flatMap.mpr ⟨x, h1, hx⟩)
  have h4 : 0 < ((L.drop j).flatMap f).count p := List.count_pos_iff.mpr (List.mem_flatMap.mpr ⟨y, h2, hy⟩)
  omega

theorem index_eq {α β : Type} [BEq β] [LawfulBEq β] {L : List α} {f : α → List β} {i j : Nat} {x y : α}
    {p : β} (hc : (L.flatMap f).count p = 1) (hi : L[i]? = some x) (hj : L[j]? = some y) (hx : p ∈ f x)
    (hy : p ∈ f y) : i = j := by
  rcases Nat.lt_trichotomy i j with h | h | h
  · have := two_le_flatMap hi hj h hx hy; omega
  · exact h
  · have := two_le_flatMap hj hi h hy hx; omega

/-- **C127** (part). A token with an id below 2³² − 1 that is on the chain, in a record or in a message under way
is in the custody of the Ethereum contract, and it is at one place only. -/
theorem C127_backed_partial {c : Cfg} {w : World} (h : Reach c Env w) {a n : Nat} (hn : n < 4294967295)
    {p : Place} (hp : At w a n p) : w.custody a n = true ∧ ∀ q, At w a n q → q = p := by
  have hi := h.inv
  have hchain : ∀ {coll x}, w.st.toRoot a = some coll → Nft.ownerOf w.st.nft coll n = some x → Ex w.st.nft coll n := by
    intro coll x _ ho
    obtain ⟨k, b, hk, hb⟩ := Nft.ownerOf_exists.mp ⟨x, ho⟩
    exact ⟨k, hk, b, hb⟩
  have heth : ∀ {coll}, w.st.toRoot a = some coll → w.st.toEth coll = some a := fun hr => (hi.maps.root _ _ hr).1
  have hmsg : ∀ {i j k}, At w a n (.message i j k) → (a, n) ∈ w.under := by
    rintro i j k ⟨m, g, h1, h2, h3, h4⟩
    refine List.mem_flatMap.mpr ⟨m, List.mem_of_getElem? h1, mem_toks.mpr ⟨g, List.mem_of_getElem? h2, h3.symm, ?_⟩⟩
    exact List.mem_of_getElem? h4
  have hcase : ∀ {p q}, At w a n p → At w a n q → q = p := by
    intro p q hp hq
    cases p with
    | chain c1 x =>
      have hx := hchain hp.1 hp.2
      cases q with
      | chain c2 y =>
        obtain ⟨e1, e2⟩ := hp
        obtain ⟨e3, e4⟩ := hq
        rw [e1] at e3
        cases e3
        rw [e2] at e4
        cases e4
        rfl
      | record i =>
        obtain ⟨r, h1, h2, h3⟩ := hq
        obtain ⟨e1, _⟩ := hp
        rw [h2] at e1
        cases e1
        exact absurd hx (hi.safe.bl i r a n hn h1 (heth h2) h3).2.1
      | message i j k => exact absurd hx ((hi.safe.pend a n hn (hmsg hq)).2.2.1 _ (heth hp.1))
    | record i =>
      obtain ⟨r, h1, h2, h3⟩ := hp
      cases q with
      | chain c2 y =>
        have hx := hchain hq.1 hq.2
        obtain ⟨e1, _⟩ := hq
        rw [h2] at e1
        cases e1
        exact absurd hx (hi.safe.bl i r a n hn h1 (heth h2) h3).2.1
      | record j =>
        obtain ⟨r', h1', h2', h3'⟩ := hq
        by_cases hij : i = j
        · rw [hij]
        · rw [h2] at h2'
          exact absurd h3' (hi.safe.bl2 i j r r' n hn hij h1 h1' (Option.some.inj h2') h3)
      | message i' j k => exact absurd h3 ((hi.safe.pend a n hn (hmsg hq)).2.2.2 i r h1 (heth h2))
    | message i j k =>
      have hpe := hi.safe.pend a n hn (hmsg hp)
      cases q with
      | chain c2 y => exact absurd (hchain hq.1 hq.2) (hpe.2.2.1 _ (heth hq.1))
      | record i' =>
        obtain ⟨r', h1', h2', h3'⟩ := hq
        exact absurd h3' (hpe.2.2.2 i' r' h1' (heth h2'))
      | message i' j' k' =>
        obtain ⟨m, g, e1, e2, e3, e4⟩ := hp
        obtain ⟨m', g', e1', e2', e3', e4'⟩ := hq
        have hin : ∀ {m : Msg} {g : Nat × List Nat} {j k : Nat}, m.groups[j]? = some g → g.1 = a → g.2[k]? = some n →
            (a, n) ∈ toks m.groups := fun h2 h3 h4 =>
          mem_toks.mpr ⟨_, List.mem_of_getElem? h2, h3.symm, List.mem_of_getElem? h4⟩
        have hii := index_eq hpe.2.1 e1 e1' (hin e2 e3 e4) (hin e2' e3' e4')
        subst hii
        rw [e1] at e1'
        cases e1'
        have hle := count_le_flatMap (f := fun m : Msg => toks m.groups) (List.mem_of_getElem? e1) (a, n)
        have hcm : (toks m.groups).count (a, n) = 1 := by
          have h2 : 0 < (toks m.groups).count (a, n) := List.count_pos_iff.mpr (hin e2 e3 e4)
          have h3 : w.under.count (a, n) = 1 := hpe.2.1
          unfold World.under at h3
          omega
        have hmem : ∀ {g : Nat × List Nat} {k : Nat}, g.1 = a → g.2[k]? = some n →
            (a, n) ∈ g.2.map (fun n => (g.1, n)) := fun h3 h4 =>
          List.mem_map.mpr ⟨n, List.mem_of_getElem? h4, by rw [h3]⟩
        have hjj := index_eq hcm e2 e2' (hmem e3 e4) (hmem e3' e4')
        subst hjj
        rw [e2] at e2'
        cases e2'
        have hle2 := count_le_flatMap (f := fun g : Nat × List Nat => g.2.map (fun n => (g.1, n)))
          (List.mem_of_getElem? e2) (a, n)
        have hcg : (g.2.flatMap (fun n => [(g.1, n)])).count (a, n) = 1 := by
          have h2 : 0 < (g.2.map (fun n => (g.1, n))).count (a, n) := List.count_pos_iff.mpr (hmem e3 e4)
          unfold toks at hcm
          rw [← List.map_eq_flatMap]
          show (g.2.map (fun n => (g.1, n))).count (a, n) = 1
          omega
        have hkk := index_eq hcg e4 e4' (by rw [e3]; exact List.mem_singleton_self _)
          (by rw [e3]; exact List.mem_singleton_self _)
        rw [hkk]
  refine ⟨?_, fun q hq => hcase hp hq⟩
  cases p with
  | chain coll x => exact hi.safe.ex coll a n hn (heth hp.1) (hchain hp.1 hp.2)
  | record i =>
    obtain ⟨r, h1, h2, h3⟩ := hp
    exact (hi.safe.bl i r a n hn h1 (heth h2) h3).1
  | message i j k => exact (hi.safe.pend a n hn (hmsg hp)).1

end Verif.NftPeg
