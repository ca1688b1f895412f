import Verif.NftPeg.Lemmas

/-!
# Where the tokens are: invariants of the ERC-721 bridge
-/

namespace Verif.NftPeg

/-- Ids below this are represented faithfully; all others are turned into this one. -/
def Lim : Nat := 4294967295

/-- Every token on the chain, in a blocked deposit or in a message under way is in the custody of the
contract, and it is in one of these places only. `C` is the custody, `P` the tokens under way. -/
structure Safe (s : St) (C : Nat → Nat → Bool) (P : List (Nat × Nat)) : Prop where
  ex : ∀ id a n, n < Lim → s.toEth id = some a → Ex s.nft id n → C a n = true
  bl : ∀ i r a n, n < Lim → s.blocked i = some r → s.toEth r.coll = some a → n ∈ r.serials →
    C a n = true ∧ ¬ Ex s.nft r.coll n ∧ r.serials.count n = 1
  bl2 : ∀ i j r q n, n < Lim → i ≠ j → s.blocked i = some r → s.blocked j = some q → r.coll = q.coll →
    n ∈ r.serials → n ∉ q.serials
  pend : ∀ a n, n < Lim → (a, n) ∈ P → C a n = true ∧ P.count (a, n) = 1 ∧
    (∀ id, s.toEth id = some a → ¬ Ex s.nft id n) ∧
    (∀ i r, s.blocked i = some r → s.toEth r.coll = some a → n ∉ r.serials)

theorem Safe.mono {s : St} {C C' : Nat → Nat → Bool} {P : List (Nat × Nat)} (h : Safe s C P)
    (hC : ∀ a n, n < Lim → C a n = true → C' a n = true) : Safe s C' P :=
  ⟨fun id a n hn he hx => hC a n hn (h.ex id a n hn he hx),
    fun i r a n hn hr he hm => ⟨hC a n hn (h.bl i r a n hn hr he hm).1, (h.bl i r a n hn hr he hm).2⟩,
    h.bl2, fun a n hn hp => ⟨hC a n hn (h.pend a n hn hp).1, (h.pend a n hn hp).2⟩⟩

/-- Tokens disappear. -/
theorem Safe.sub {s : St} {C : Nat → Nat → Bool} {P : List (Nat × Nat)} (h : Safe s C P) {nft : Nft.St}
    (hx : ∀ id a n, s.toEth id = some a → Ex nft id n → Ex s.nft id n) : Safe { s with nft := nft } C P :=
  ⟨fun id a n hn he hx' => h.ex id a n hn he (hx id a n he hx'),
    fun i r a n hn hr he hm => ⟨(h.bl i r a n hn hr he hm).1,
      fun hx' => (h.bl i r a n hn hr he hm).2.1 (hx _ a n he hx'), (h.bl i r a n hn hr he hm).2.2⟩,
    h.bl2, fun a n hn hp => ⟨(h.pend a n hn hp).1, (h.pend a n hn hp).2.1,
      fun id he hx' => (h.pend a n hn hp).2.2.1 id he (hx id a n he hx'), (h.pend a n hn hp).2.2.2⟩⟩

theorem Safe.collFor {c : Cfg} {s s1 : St} {addr id : Nat} {dest : Acct} {C : Nat → Nat → Bool}
    {P : List (Nat × Nat)} (h : Safe s C P) (hm : Maps c s) (hc : collFor c s addr dest = .ok (s1, id)) :
    Safe s1 C P := by
  obtain ⟨_, _, _, hb, _, _, hex, hnew, hold, _, _⟩ := collFor_ok hm hc
  have hbe : ∀ i r a, s1.blocked i = some r → s1.toEth r.coll = some a → s.toEth r.coll = some a := by
    intro i r a hr he
    rw [hb] at hr
    obtain ⟨a', ha'⟩ := hm.bl i r hr
    rw [hold _ _ ha'] at he
    rw [ha', he]
  refine ⟨?_, ?_, ?_, ?_⟩
  · intro j a n hn he hx
    rcases hnew j a he with h1 | ⟨rfl, _, h2⟩
    · exact h.ex j a n hn h1 ((hex j n).mp hx)
    · exact absurd hx (h2 n)
  · intro i r a n hn hr he hmem
    have he' := hbe i r a hr he
    rw [hb] at hr
    obtain ⟨h1, h2, h3⟩ := h.bl i r a n hn hr he' hmem
    exact ⟨h1, fun hx => h2 ((hex _ n).mp hx), h3⟩
  · rw [hb]
    exact h.bl2
  · intro a n hn hp
    obtain ⟨h1, h2, h3, h4⟩ := h.pend a n hn hp
    refine ⟨h1, h2, ?_, ?_⟩
    · intro j he hx
      rcases hnew j a he with h5 | ⟨rfl, _, h5⟩
      · exact h3 j h5 ((hex j n).mp hx)
      · exact h5 n hx
    · intro i r hr he
      have he' := hbe i r a hr he
      rw [hb] at hr
      exact h4 i r hr he'

theorem mem_toks_one {g : Nat × List Nat} {a n : Nat} : (a, n) ∈ toks [g] ↔ a = g.1 ∧ n ∈ g.2 := by
  unfold toks
  simp only [List.flatMap_cons, List.flatMap_nil, List.append_nil, List.mem_map, Prod.mk.injEq]
  constructor
  · rintro ⟨m, hm, rfl, rfl⟩; exact ⟨rfl, hm⟩
  · rintro ⟨rfl, hm⟩; exact ⟨n, hm, rfl, rfl⟩

theorem toks_cons (g : Nat × List Nat) (gs : List (Nat × List Nat)) : toks (g :: gs) = toks [g] ++ toks gs := by
  unfold toks
  simp only [List.flatMap_cons, List.flatMap_nil, List.append_nil]

theorem toks_append (gs hs : List (Nat × List Nat)) : toks (gs ++ hs) = toks gs ++ toks hs := by
  unfold toks
  rw [List.flatMap_append]

theorem setCustody_mem {C : Nat → Nat → Bool} {l : List (Nat × Nat)} {v : Bool} {a n : Nat} (h : (a, n) ∈ l) :
    setCustody C l v a n = v := if_pos h

theorem setCustody_not {C : Nat → Nat → Bool} {l : List (Nat × Nat)} {v : Bool} {a n : Nat} (h : (a, n) ∉ l) :
    setCustody C l v a n = C a n := if_neg h

theorem setCustody_true {C : Nat → Nat → Bool} {l : List (Nat × Nat)} {a n : Nat} (h : C a n = true) :
    setCustody C l true a n = true := by
  unfold setCustody
  split
  · rfl
  · exact h

theorem Safe.group {c : Cfg} {s : St} {C : Nat → Nat → Bool} {P : List (Nat × Nat)} {dest : Acct}
    {g : Nat × List Nat} (h : Safe s C P) (hm : Maps c s)
    (hg : ∀ n ∈ g.2, n < Lim → C g.1 n = false ∧ g.2.count n = 1) :
    Safe (depositGroup c s dest g).1 (setCustody C (toks [g]) true) P := by
  have hmono : ∀ {s1 : St}, Safe s1 C P → Safe s1 (setCustody C (toks [g]) true) P :=
    fun h1 => h1.mono (fun a n _ ha => setCustody_true ha)
  unfold depositGroup
  cases hc : NftPeg.collFor c s g.1 dest with
  | error e => exact hmono h
  | ok r =>
    obtain ⟨s1, id⟩ := r
    obtain ⟨hm1, hroot, heth, hb, _⟩ := collFor_ok hm hc
    have h1 := h.collFor hm hc
    obtain ⟨k, hk, _⟩ := hm1.coll heth
    have hcon : ∀ n, n ∈ g.2 → n < Lim → C g.1 n = true → False := by
      intro n hn hl ht
      rw [(hg n hn hl).1] at ht
      cases ht
    have hinj : ∀ j, s1.toEth j = some g.1 → j = id := by
      intro j hj
      have := hm1.eth j _ hj
      rw [hroot] at this
      cases this
      rfl
    dsimp only
    cases hmint : Nft.bridgedMint c.nft s1.nft id dest g.2 with
    | ok n' =>
      obtain ⟨k', hk', _, hown, hoth, _⟩ := bridgedMint_ok hk hmint
      have hex : ∀ j m, Ex n' j m → Ex s1.nft j m ∨ (j = id ∧ m ∈ g.2) := by
        rintro j m ⟨k1, hk1, a, ha⟩
        by_cases hj : j = id
        · subst hj
          rw [hk'] at hk1
          cases hk1
          rcases hown a m ha with h2 | h2
          · exact Or.inl ⟨k, hk, a, h2⟩
          · exact Or.inr ⟨rfl, h2.2.1⟩
        · rw [hoth j hj] at hk1
          exact Or.inl ⟨k1, hk1, a, ha⟩
      have hid : ∀ {j a}, j = id → s1.toEth j = some a → a = g.1 := by
        rintro j a rfl he
        rw [heth] at he
        cases he
        rfl
      refine ⟨?_, ?_, h1.bl2, ?_⟩
      · intro j a m hl he hx
        rcases hex j m hx with h2 | ⟨h2, h3⟩
        · exact setCustody_true (h1.ex j a m hl he h2)
        · exact setCustody_mem (mem_toks_one.mpr ⟨hid h2 he, h3⟩)
      · intro i r a m hl hr he hmem
        obtain ⟨h2, h3, h4⟩ := h1.bl i r a m hl hr he hmem
        refine ⟨setCustody_true h2, ?_, h4⟩
        intro hx
        rcases hex _ m hx with h5 | ⟨h5, h6⟩
        · exact h3 h5
        · rw [hid h5 he] at h2
          exact hcon m h6 hl h2
      · intro a m hl hp
        obtain ⟨h2, h3, h4, h5⟩ := h1.pend a m hl hp
        refine ⟨setCustody_true h2, h3, ?_, h5⟩
        intro j he hx
        rcases hex j m hx with h6 | ⟨h6, h7⟩
        · exact h4 j he h6
        · rw [hid h6 he] at h2
          exact hcon m h7 hl h2
    | error e =>
      dsimp only
      unfold block
      split
      · have hbl : ∀ i r, upd s1.blocked s1.nextBlocked (some ⟨id, dest, g.2⟩) i = some r →
            (i = s1.nextBlocked ∧ r = ⟨id, dest, g.2⟩) ∨ (i ≠ s1.nextBlocked ∧ s1.blocked i = some r) := by
          intro i r hr
          by_cases hi : i = s1.nextBlocked
          · subst hi
            rw [upd_same] at hr
            cases hr
            exact Or.inl ⟨rfl, rfl⟩
          · rw [upd_ne _ _ hi] at hr
            exact Or.inr ⟨hi, hr⟩
        refine ⟨?_, ?_, ?_, ?_⟩
        · intro j a m hl he hx
          exact setCustody_true (h1.ex j a m hl he hx)
        · intro i r a m hl hr he hmem
          rcases hbl i r hr with ⟨_, rfl⟩ | ⟨_, hr'⟩
          · dsimp only at he hmem ⊢
            rw [heth] at he
            cases he
            exact ⟨setCustody_mem (mem_toks_one.mpr ⟨rfl, hmem⟩),
              fun hx => hcon m hmem hl (h1.ex id g.1 m hl heth hx), (hg m hmem hl).2⟩
          · obtain ⟨h2, h3⟩ := h1.bl i r a m hl hr' he hmem
            exact ⟨setCustody_true h2, h3⟩
        · intro i j r q m hl hne hr hq hco hmr hmq
          rcases hbl i r hr with ⟨rfl, rfl⟩ | ⟨_, hr'⟩ <;> rcases hbl j q hq with ⟨rfl, rfl⟩ | ⟨_, hq'⟩
          · exact hne rfl
          · dsimp only at hco hmr
            exact hcon m hmr hl (h1.bl j q g.1 m hl hq' (by rw [← hco]; exact heth) hmq).1
          · dsimp only at hco hmq
            exact hcon m hmq hl (h1.bl i r g.1 m hl hr' (by rw [hco]; exact heth) hmr).1
          · exact h1.bl2 i j r q m hl hne hr' hq' hco hmr hmq
        · intro a m hl hp
          obtain ⟨h2, h3, h4, h5⟩ := h1.pend a m hl hp
          refine ⟨setCustody_true h2, h3, h4, ?_⟩
          intro i r hr he hmem
          rcases hbl i r hr with ⟨_, rfl⟩ | ⟨_, hr'⟩
          · dsimp only at he hmem
            rw [heth] at he
            cases he
            exact hcon m hmem hl h2
          · exact h5 i r hr' he hmem
      · exact hmono h1

theorem count_toks_one {g : Nat × List Nat} {n : Nat} : (toks [g]).count (g.1, n) = g.2.count n := by
  unfold toks
  simp only [List.flatMap_cons, List.flatMap_nil, List.append_nil]
  exact List.count_map_of_injective g.2 (fun m => (g.1, m)) (fun x y hxy => (Prod.mk.inj hxy).2) n

theorem Safe.deposit {c : Cfg} {dest : Acct} {P : List (Nat × Nat)} : ∀ (gs : List (Nat × List Nat)) {s : St}
    {C : Nat → Nat → Bool}, Safe s C P → Maps c s →
    (∀ p ∈ toks gs, p.2 < Lim → C p.1 p.2 = false ∧ (toks gs).count p = 1) →
    Safe (doDeposit c dest s gs).1 (setCustody C (toks gs) true) P
  | [], s, C, h, _, _ => h.mono (fun a n _ ha => setCustody_true ha)
  | g :: gs, s, C, h, hm, hg => by
    rw [toks_cons] at hg ⊢
    have h1 := h.group (dest := dest) (g := g) hm (by
      intro n hn hl
      have hin : (g.1, n) ∈ toks [g] := mem_toks_one.mpr ⟨rfl, hn⟩
      obtain ⟨h2, h3⟩ := hg (g.1, n) (List.mem_append_left _ hin) hl
      refine ⟨h2, ?_⟩
      rw [List.count_append, count_toks_one] at h3
      have : 0 < g.2.count n := List.count_pos_iff.mpr hn
      omega)
    have hm1 := hm.group (dest := dest) (g := g)
    unfold doDeposit
    cases hd : depositGroup c s dest g with
    | mk s1 o =>
      rw [hd] at h1 hm1
      cases o with
      | none =>
        have h2 := Safe.deposit (dest := dest) gs h1 hm1 (by
          intro p hp hl
          obtain ⟨h2, h3⟩ := hg p (List.mem_append_right _ hp) hl
          have hc : 0 < (toks gs).count p := List.count_pos_iff.mpr hp
          rw [List.count_append] at h3
          have h0 : (toks [g]).count p = 0 := by omega
          refine ⟨?_, by omega⟩
          rw [setCustody_not (List.count_eq_zero.mp h0)]
          exact h2)
        dsimp only
        refine h2.mono ?_
        intro a n _ ha
        by_cases hx : (a, n) ∈ toks [g] ++ toks gs
        · exact setCustody_mem hx
        · rw [setCustody_not hx]
          rw [List.mem_append, not_or] at hx
          rw [setCustody_not hx.2, setCustody_not hx.1] at ha
          exact ha
      | some e =>
        dsimp only
        refine h1.mono ?_
        intro a n _ ha
        by_cases hx : (a, n) ∈ toks [g] ++ toks gs
        · exact setCustody_mem hx
        · rw [setCustody_not hx]
          rw [List.mem_append, not_or] at hx
          rw [setCustody_not hx.1] at ha
          exact ha

/-- A token is burnt and goes under way. -/
theorem Safe.burn {c : Cfg} {s : St} {C : Nat → Nat → Bool} {P : List (Nat × Nat)} (h : Safe s C P)
    (hm : Maps c s) {who : Acct} {id a m : Nat} {nft : Nft.St} (he : s.toEth id = some a)
    (hb : Nft.doBurn s.nft who id m = .ok nft) : Safe { s with nft := nft } C (P ++ [(a, m)]) := by
  have hex := burn_ex hm.nft hb
  obtain ⟨k, hk, ho, _⟩ := doBurn_ok hb
  have hx0 : Ex s.nft id m := ⟨k, hk, who, ho⟩
  have hinj : ∀ j, s.toEth j = some a → j = id := by
    intro j hj
    have h1 := hm.eth j a hj
    rw [hm.eth id a he] at h1
    cases h1
    rfl
  have h1 : Safe { s with nft := nft } C P := h.sub (fun j b n _ hx => ((hex j n).mp hx).1)
  refine ⟨h1.ex, h1.bl, h1.bl2, ?_⟩
  intro b n hl hp
  rcases List.mem_append.mp hp with hpP | hp
  · obtain ⟨h2, h3, h4⟩ := h1.pend b n hl hpP
    refine ⟨h2, ?_, h4⟩
    rw [List.count_append, h3]
    have hne : (b, n) ≠ (a, m) := by
      intro e
      obtain ⟨rfl, rfl⟩ := Prod.mk.inj e
      exact (h.pend b n hl hpP).2.2.1 id he hx0
    rw [List.count_singleton, if_neg (by simpa using hne.symm)]
  · obtain ⟨rfl, rfl⟩ := Prod.mk.inj (List.mem_singleton.mp hp)
    have hnp : (b, n) ∉ P := fun hp => (h.pend b n hl hp).2.2.1 id he hx0
    refine ⟨h.ex id b n hl he hx0, ?_, ?_, ?_⟩
    · rw [List.count_append, List.count_eq_zero.mpr hnp, List.count_singleton_self]
    · intro j hj hx
      exact ((hex j n).mp hx).2 ⟨hinj j hj, rfl⟩
    · intro i r hr hej hmem
      have e := hinj _ hej
      have := (h.bl i r b n hl hr hej hmem).2.1
      rw [e] at this
      exact this hx0

theorem Safe.burnAll {c : Cfg} {who : Acct} {id a : Nat} : ∀ (ns : List Nat) {s : St} {C : Nat → Nat → Bool}
    {P : List (Nat × Nat)} {nft : Nft.St}, Safe s C P → Maps c s → s.toEth id = some a →
    burnAll who id s.nft ns = .ok nft →
    Safe { s with nft := nft } C (P ++ ns.map (fun n => (a, n))) ∧ Maps c { s with nft := nft }
  | [], s, C, P, nft, h, hm, he, hb => by
    cases hb
    rw [List.map_nil, List.append_nil]
    exact ⟨h, hm⟩
  | n :: ns, s, C, P, nft, h, hm, he, hb => by
    simp only [NftPeg.burnAll, bind_ok] at hb
    obtain ⟨n1, h1, h2⟩ := hb
    have := Safe.burnAll ns (s := { s with nft := n1 }) (h.burn hm he h1) (hm.burn h1) he h2
    rw [List.map_cons, ← List.append_cons] at *
    exact this

theorem map_ok {α β : Type} {x : Except Err α} {f : α → β} {b : β} : x.map f = .ok b ↔ ∃ a, x = .ok a ∧ f a = b := by
  cases x with
  | error e => exact ⟨fun h => (nomatch h), fun ⟨_, h, _⟩ => (nomatch h)⟩
  | ok a =>
    show Except.ok (f a) = .ok b ↔ _
    constructor
    · intro h; cases h; exact ⟨a, rfl, rfl⟩
    · rintro ⟨_, h, rfl⟩; cases h; rfl

/-- One collection of a withdrawal. -/
theorem withdrawColl_ok {s s1 : St} {who : Acct} {id : Nat} {ns : List Nat} {g : Nat × List Nat}
    (h : withdrawColl s who none id ns = .ok (s1, g)) :
    (∃ k, s.nft.coll id = some k ∧ k.origin = .ethereum) ∧ s.toEth id = some g.1 ∧ g.2 = ns ∧
      ∃ nft, burnAll who id s.nft ns = .ok nft ∧ s1 = { s with nft := nft } := by
  simp only [withdrawColl, bind_ok, ensure_ok, okOr_ok, pure_ok, map_ok] at h
  obtain ⟨k, hk, _, hg, r, ⟨n, hn, rfl⟩, a, ha, he⟩ := h
  cases he
  exact ⟨⟨k, hk, hg⟩, ha, rfl, n, hn, rfl⟩

theorem Safe.loop {c : Cfg} {who : Acct} : ∀ (l : List (Nat × List Nat)) {s s' : St} {C : Nat → Nat → Bool}
    {P : List (Nat × Nat)} {gs : List (Nat × List Nat)}, Safe s C P → Maps c s →
    withdrawLoop who none s l = .ok (s', gs) → Safe s' C (P ++ toks gs) ∧ Maps c s'
  | [], s, s', C, P, gs, h, hm, hl => by
    cases hl
    show Safe s C (P ++ []) ∧ _
    rw [List.append_nil]
    exact ⟨h, hm⟩
  | (id, ns) :: l, s, s', C, P, gs, h, hm, hl => by
    simp only [withdrawLoop, bind_ok, pure_ok] at hl
    obtain ⟨⟨s1, g⟩, h1, ⟨s2, gs'⟩, h2, he⟩ := hl
    cases he
    obtain ⟨_, ha, hns, nft, hb, rfl⟩ := withdrawColl_ok h1
    obtain ⟨h3, h4⟩ := h.burnAll ns hm ha hb
    have := Safe.loop l h3 h4 h2
    have e : ns.map (fun n => (g.1, n)) = toks [g] := by
      rw [← hns]
      unfold toks
      simp only [List.flatMap_cons, List.flatMap_nil, List.append_nil]
    rw [e, List.append_assoc, ← toks_cons] at this
    exact this

theorem withdraw_ok {c : Cfg} {s s' : St} {who : Acct} {colls : List Nat} {serials : List (List Nat)} {dest : Nat}
    {ok : Bool} {m : Msg} (h : withdraw c s who colls serials dest ok = .ok (s', m)) :
    colls.length = serials.length ∧ ok = true ∧ m.dest = dest ∧ m.contract = s'.contract ∧
      withdrawLoop who none s (colls.zip serials) = .ok (s', m.groups) := by
  simp only [withdraw, doWithdrawal, bind_ok, ensure_ok, pure_ok] at h
  obtain ⟨_, _, _, hl, ⟨s1, gs⟩, h1, _, hok, he⟩ := h
  cases he
  exact ⟨hl, hok, rfl, rfl, h1⟩

theorem reclaim_ok {s s' : St} {who : Acct} {b dest : Nat} {ok : Bool} {m : Msg}
    (h : reclaim s who b dest ok = .ok (s', m)) :
    ∃ r a, s.blocked b = some r ∧ r.dest = who ∧ s.toEth r.coll = some a ∧ ok = true ∧
      s' = { s with blocked := upd s.blocked b none } ∧ m = ⟨s.contract, [(a, r.serials)], dest⟩ := by
  simp only [reclaim, doWithdrawal, bind_ok, ensure_ok, okOr_ok, pure_ok] at h
  obtain ⟨r, hr, _, hd, _, _, ⟨s1, gs⟩, h1, _, hok, he⟩ := h
  cases he
  simp only [List.zip_cons_cons, List.zip_nil_left, withdrawLoop, withdrawColl, takeBlocked, bind_ok, ensure_ok,
    okOr_ok, pure_ok] at h1
  obtain ⟨⟨s2, g⟩, ⟨k, hk, _, hg, p, ⟨r', hr', rfl⟩, a, ha, he1⟩, ⟨s3, gs'⟩, he2, he3⟩ := h1
  rw [hr] at hr'
  cases hr'
  cases he1
  cases he2
  cases he3
  exact ⟨r, a, hr, hd, ha, hok, rfl, rfl⟩

/-- A blocked deposit goes under way. -/
theorem Safe.take {c : Cfg} {s : St} {C : Nat → Nat → Bool} {P : List (Nat × Nat)} (h : Safe s C P)
    (hm : Maps c s) {b a : Nat} {r : Blocked} (hr : s.blocked b = some r) (he : s.toEth r.coll = some a) :
    Safe { s with blocked := upd s.blocked b none } C (P ++ toks [(a, r.serials)]) := by
  have hinj : ∀ j, s.toEth j = some a → j = r.coll := by
    intro j hj
    have h1 := hm.eth j a hj
    rw [hm.eth _ a he] at h1
    cases h1
    rfl
  have hbl : ∀ i q, upd s.blocked b none i = some q → i ≠ b ∧ s.blocked i = some q := by
    intro i q hq
    by_cases hi : i = b
    · subst hi
      rw [upd_same] at hq
      cases hq
    · rw [upd_ne _ _ hi] at hq
      exact ⟨hi, hq⟩
  refine ⟨h.ex, ?_, ?_, ?_⟩
  · intro i q a' n hl hq he' hmem
    exact h.bl i q a' n hl (hbl i q hq).2 he' hmem
  · intro i j q q' n hl hne hq hq' hco h1
    exact h.bl2 i j q q' n hl hne (hbl i q hq).2 (hbl j q' hq').2 hco h1
  · intro a' n hl hp
    rcases List.mem_append.mp hp with hp | hp
    · obtain ⟨h2, h3, h4, h5⟩ := h.pend a' n hl hp
      refine ⟨h2, ?_, h4, fun i q hq => h5 i q (hbl i q hq).2⟩
      rw [List.count_append, h3]
      have : (a', n) ∉ toks [(a, r.serials)] := by
        intro hx
        obtain ⟨rfl, hmem⟩ := mem_toks_one.mp hx
        exact h5 b r hr he hmem
      rw [List.count_eq_zero.mpr this]
    · obtain ⟨ea, hmem⟩ := mem_toks_one.mp hp
      dsimp only at ea hmem
      subst ea
      obtain ⟨h2, h3, h4⟩ := h.bl b r _ n hl hr he hmem
      have hnp : (a', n) ∉ P := fun hx => (h.pend a' n hl hx).2.2.2 b r hr he hmem
      refine ⟨h2, ?_, ?_, ?_⟩
      · rw [List.count_append, List.count_eq_zero.mpr hnp]
        have := count_toks_one (g := (a', r.serials)) (n := n)
        dsimp only at this ⊢
        rw [this, h4]
      · intro j hj hx
        rw [hinj j hj] at hx
        exact h3 hx
      · intro i q hq hej
        obtain ⟨hne, hq'⟩ := hbl i q hq
        exact h.bl2 b i r q n hl hne.symm hr hq' (hinj _ hej).symm hmem

theorem Maps.unblock {c : Cfg} {s : St} (h : Maps c s) (b : Nat) : Maps c { s with blocked := upd s.blocked b none } := by
  refine ⟨h.nft, h.root, h.eth, ?_⟩
  intro i r hr
  by_cases hi : i = b
  · subst hi
    dsimp only at hr
    rw [upd_same] at hr
    cases hr
  · dsimp only at hr
    rw [upd_ne _ _ hi] at hr
    exact h.bl i r hr

/-! ## the world -/

/-- The tokens of all messages under way. -/
def World.under (w : World) : List (Nat × Nat) := w.pending.flatMap (fun m => toks m.groups)

structure Inv (c : Cfg) (w : World) : Prop where
  maps : Maps c w.st
  safe : Safe w.st w.custody w.under

theorem Inv.genesis {c : Cfg} {w : World} (h : Genesis w) : Inv c w := by
  refine ⟨⟨.init h.nft, ?_, ?_, ?_⟩, ?_, ?_, ?_, ?_⟩
  · intro a id hx; rw [h.toRoot] at hx; cases hx
  · intro id a hx; rw [h.toEth] at hx; cases hx
  · intro i r hx; rw [h.blocked] at hx; cases hx
  · intro id a n _ hx; rw [h.toEth] at hx; cases hx
  · intro i r a n _ hx; rw [h.blocked] at hx; cases hx
  · intro i j r q n _ _ hx; rw [h.blocked] at hx; cases hx
  · intro a n _ hx; unfold World.under at hx; rw [h.pending] at hx; cases hx

theorem mem_map_serialOf {l : List Nat} {n : Nat} (hn : n < Lim) : n ∈ l.map serialOf ↔ n ∈ l := by
  unfold Lim at hn
  rw [List.mem_map]
  constructor
  · rintro ⟨m, hm, he⟩
    have : m = n := by unfold serialOf U32 at he; omega
    rwa [this] at hm
  · intro h; exact ⟨n, h, by unfold serialOf U32; omega⟩

theorem count_map_serialOf {n : Nat} (hn : n < Lim) : ∀ (l : List Nat), (l.map serialOf).count n = l.count n
  | [] => rfl
  | m :: l => by
    rw [List.map_cons, List.count_cons, List.count_cons, count_map_serialOf hn l]
    have : (serialOf m == n) = (m == n) := by
      unfold Lim at hn
      by_cases h : m = n
      · subst h
        have : serialOf m = m := by unfold serialOf U32; omega
        rw [this]
      · have h2 : serialOf m ≠ n := by unfold serialOf U32; omega
        rw [beq_eq_false_iff_ne.mpr h, beq_eq_false_iff_ne.mpr h2]
    rw [this]

/-- A deposit as the pallet sees it. -/
def seen (gs : List (Nat × List Nat)) : List (Nat × List Nat) := gs.map (fun g => (g.1, g.2.map serialOf))

theorem mem_toks {gs : List (Nat × List Nat)} {p : Nat × Nat} : p ∈ toks gs ↔ ∃ g ∈ gs, p.1 = g.1 ∧ p.2 ∈ g.2 := by
  unfold toks
  simp only [List.mem_flatMap, List.mem_map]
  constructor
  · rintro ⟨g, hg, n, hn, rfl⟩; exact ⟨g, hg, rfl, hn⟩
  · rintro ⟨g, hg, h1, h2⟩; exact ⟨g, hg, p.2, h2, by rw [← h1]⟩

theorem mem_toks_seen {gs : List (Nat × List Nat)} {p : Nat × Nat} (hl : p.2 < Lim) :
    p ∈ toks (seen gs) ↔ p ∈ toks gs := by
  rw [mem_toks, mem_toks]
  unfold seen
  constructor
  · rintro ⟨g, hg, h1, h2⟩
    obtain ⟨g', hg', rfl⟩ := List.mem_map.mp hg
    exact ⟨g', hg', h1, (mem_map_serialOf hl).mp h2⟩
  · rintro ⟨g, hg, h1, h2⟩
    exact ⟨_, List.mem_map.mpr ⟨g, hg, rfl⟩, h1, (mem_map_serialOf hl).mpr h2⟩

theorem count_toks_seen {p : Nat × Nat} (hl : p.2 < Lim) : ∀ (gs : List (Nat × List Nat)),
    (toks (seen gs)).count p = (toks gs).count p
  | [] => rfl
  | g :: gs => by
    show (toks ((g.1, g.2.map serialOf) :: seen gs)).count p = _
    rw [toks_cons, toks_cons g gs, List.count_append, List.count_append, count_toks_seen hl gs]
    congr 1
    by_cases hp : p.1 = g.1
    · have e : p = (g.1, p.2) := by rw [← hp]
      rw [e]
      have h1 := count_toks_one (g := (g.1, g.2.map serialOf)) (n := p.2)
      have h2 := count_toks_one (g := g) (n := p.2)
      dsimp only at h1
      rw [h1, h2, count_map_serialOf hl]
    · rw [List.count_eq_zero.mpr, List.count_eq_zero.mpr]
      · intro hx; exact hp ((mem_toks_one (a := p.1) (n := p.2)).mp hx).1
      · intro hx; exact hp ((mem_toks_one (a := p.1) (n := p.2)).mp hx).1

theorem decode_ok {c : Cfg} {addrs : List Nat} {ids : List (List Nat)} {gs : List (Nat × List Nat)}
    (h : decode c addrs ids = .ok gs) : addrs.length = ids.length ∧ addrs.length ≤ c.maxAddresses ∧
      (∀ l ∈ ids, l.length ≤ c.maxPerMint) ∧ gs = seen (addrs.zip ids) := by
  simp only [decode, bind_ok, ensure_ok, pure_ok] at h
  obtain ⟨_, h1, _, h2, _, _, _, h3, rfl⟩ := h
  refine ⟨h3, h1, h2, ?_⟩
  rw [List.zip_map_right]
  rfl

theorem Inv.event {c : Cfg} {w : World} {e : Event} (h : Inv c w) (hn : e.toks.Nodup)
    (hc : ∀ p ∈ e.toks, w.custody p.1 p.2 = false) :
    Maps c (onEvent c w.st e).1 ∧ Safe (onEvent c w.st e).1 (setCustody w.custody e.toks true) w.under := by
  have hsame : Maps c w.st ∧ Safe w.st (setCustody w.custody e.toks true) w.under :=
    ⟨h.maps, h.safe.mono (fun a n _ ha => setCustody_true ha)⟩
  unfold onEvent
  split
  · exact hsame
  · exact hsame
  · rename_i addrs ids dest
    cases hd : decode c addrs ids with
    | error _ => exact hsame
    | ok gs =>
      obtain ⟨_, _, _, rfl⟩ := decode_ok hd
      dsimp only
      refine ⟨h.maps.deposit _, ?_⟩
      have h1 := h.safe.deposit (dest := dest) (seen (addrs.zip ids)) h.maps (by
        intro p hp hl
        have hp' := (mem_toks_seen hl).mp hp
        refine ⟨hc p hp', ?_⟩
        rw [count_toks_seen hl]
        exact List.count_eq_one_of_mem hn hp')
      refine h1.mono ?_
      intro a n hl ha
      by_cases hx : (a, n) ∈ toks (addrs.zip ids)
      · exact setCustody_mem hx
      · have hx' : (a, n) ∉ toks (seen (addrs.zip ids)) := fun hy => hx ((mem_toks_seen (p := (a, n)) hl).mp hy)
        rw [setCustody_not hx'] at ha
        exact setCustody_true ha
  · exact hsame
  · exact hsame

theorem Inv.step {c : Cfg} {w w' : World} {op : Op} (h : Inv c w) (hE : Env w op) (hs : step c w op = .ok w') :
    Inv c w' := by
  cases op with
  | deposit e =>
    cases hs
    obtain ⟨h1, h2⟩ := h.event hE.1 hE.2
    exact ⟨h1, h2⟩
  | withdraw who colls serials dest ok =>
    simp only [NftPeg.step, bind_ok, pure_ok] at hs
    obtain ⟨⟨s1, m⟩, h1, rfl⟩ := hs
    obtain ⟨_, _, _, _, hl⟩ := withdraw_ok h1
    obtain ⟨h2, h3⟩ := h.safe.loop _ h.maps hl
    refine ⟨h3, ?_⟩
    show Safe s1 w.custody ((w.pending ++ [m]).flatMap (fun m => toks m.groups))
    rw [List.flatMap_append, List.flatMap_cons, List.flatMap_nil, List.append_nil]
    exact h2
  | reclaim who b dest ok =>
    simp only [NftPeg.step, bind_ok, pure_ok] at hs
    obtain ⟨⟨s1, m⟩, h1, rfl⟩ := hs
    obtain ⟨r, a, hr, _, ha, _, rfl, rfl⟩ := reclaim_ok h1
    refine ⟨h.maps.unblock b, ?_⟩
    show Safe _ w.custody ((w.pending ++ [_]).flatMap (fun m : Msg => toks m.groups))
    rw [List.flatMap_append, List.flatMap_cons, List.flatMap_nil, List.append_nil]
    exact h.safe.take h.maps hr ha
  | setContract a =>
    cases hs
    exact ⟨⟨h.maps.nft, h.maps.root, h.maps.eth, h.maps.bl⟩, ⟨h.safe.ex, h.safe.bl, h.safe.bl2, h.safe.pend⟩⟩
  | nft op =>
    simp only [NftPeg.step, bind_ok, pure_ok] at hs
    obtain ⟨n, h1, rfl⟩ := hs
    have hop : ∀ id a ns k, op = .bridgedMint id a ns → w.st.nft.coll id = some k → k.origin = .xrpl := by
      rintro id a ns k rfl hk
      exact hE k hk
    refine ⟨h.maps.nftOp hop h1, h.safe.sub ?_⟩
    rintro id a m he ⟨k', hk', x, hx⟩
    obtain ⟨k, hk, hg⟩ := h.maps.coll he
    obtain ⟨k2, hk2, _, hsub⟩ := eff_old h.maps.nft.ai (Nft.step_eff h1) hk (by rw [hg]; decide) (by
      intro a ns e
      have := hop _ _ _ k e hk
      rw [hg] at this
      cases this)
    rw [hk2] at hk'
    cases hk'
    exact ⟨k, hk, hsub x m hx⟩
  | deliver i =>
    simp only [NftPeg.step, bind_ok, okOr_ok, pure_ok] at hs
    obtain ⟨m, hm, rfl⟩ := hs
    refine ⟨h.maps, ?_⟩
    obtain ⟨hi, hm⟩ := List.getElem?_eq_some_iff.mp hm
    have hsplit : w.pending = w.pending.take i ++ m :: w.pending.drop (i + 1) := by
      rw [← hm, List.getElem_cons_drop, List.take_append_drop]
    have hP : w.under = (w.pending.take i).flatMap (fun m => toks m.groups) ++
        (toks m.groups ++ (w.pending.drop (i + 1)).flatMap (fun m => toks m.groups)) := by
      unfold World.under
      conv_lhs => rw [hsplit]
      rw [List.flatMap_append, List.flatMap_cons]
    have hP' : World.under { w with
        custody := setCustody w.custody (toks m.groups) false
        pending := w.pending.eraseIdx i } = (w.pending.take i).flatMap (fun m => toks m.groups) ++
        (w.pending.drop (i + 1)).flatMap (fun m => toks m.groups) := by
      unfold World.under
      rw [List.eraseIdx_eq_take_drop_succ, List.flatMap_append]
    rw [hP']
    have hsafe := h.safe
    rw [hP] at hsafe
    generalize (w.pending.take i).flatMap (fun m => toks m.groups) = A at *
    generalize (w.pending.drop (i + 1)).flatMap (fun m => toks m.groups) = B at *
    generalize toks m.groups = T at *
    have hin : ∀ a n, n < Lim → (a, n) ∈ T → (a, n) ∈ A ++ (T ++ B) := fun a n _ hx =>
      List.mem_append_right _ (List.mem_append_left _ hx)
    refine ⟨?_, ?_, hsafe.bl2, ?_⟩
    · intro id a n hl he hx
      have hnot : (a, n) ∉ T := fun ht => (hsafe.pend a n hl (hin a n hl ht)).2.2.1 id he hx
      dsimp only
      rw [setCustody_not hnot]
      exact hsafe.ex id a n hl he hx
    · intro j r a n hl hr he hmem
      have hnot : (a, n) ∉ T := fun ht => (hsafe.pend a n hl (hin a n hl ht)).2.2.2 j r hr he hmem
      dsimp only
      rw [setCustody_not hnot]
      exact hsafe.bl j r a n hl hr he hmem
    · intro a n hl hp
      have hp' : (a, n) ∈ A ++ (T ++ B) := by
        rcases List.mem_append.mp hp with hp | hp
        · exact List.mem_append_left _ hp
        · exact List.mem_append_right _ (List.mem_append_right _ hp)
      obtain ⟨h1, h2, h3⟩ := hsafe.pend a n hl hp'
      rw [List.count_append, List.count_append] at h2
      have hpos : 0 < (A ++ B).count (a, n) := List.count_pos_iff.mpr hp
      rw [List.count_append] at hpos
      have h0 : T.count (a, n) = 0 := by omega
      dsimp only
      rw [setCustody_not (List.count_eq_zero.mp h0)]
      exact ⟨h1, by rw [List.count_append]; omega, h3⟩

theorem Reach.inv {c : Cfg} {w : World} (h : Reach c Env w) : Inv c w := by
  induction h with
  | init hg => exact Inv.genesis hg
  | step _ hE hs ih => exact ih.step hE hs

theorem Reach.mono {c : Cfg} {G H : World → Op → Prop} (hGH : ∀ w op, G w op → H w op) {w : World}
    (h : Reach c G w) : Reach c H w := by
  induction h with
  | init hg => exact .init hg
  | step _ hG hs ih => exact ih.step (hGH _ _ hG) hs

end Verif.NftPeg
