import Verif.Holds.Lemmas

/-!
# Properties of holds: C34, C35, C79
-/

namespace Verif.Holds

/-- The amount a pallet holds of an account's asset, as reported by the pallet
(/repo/pallet/assets-ext/src/lib.rs:328 `hold_balance`). -/
def hold (s : St) (p : Nat) (w : Acct) (a : AssetId) : Nat := holdOf (s.holds a w) p

/-- All holds of an account in an asset. -/
def held (s : St) (a : AssetId) (w : Acct) : Nat := ((s.holds a w).map Prod.snd).sum

/-! ## Demonstration -/

def cfg0 : Cfg := ⟨999, 2⟩
def g0 : St := ⟨⟨fun _ a => if a = 1 then 100 else if a = 2 then 50 else 0, fun _ => 150⟩, fun _ _ => []⟩

theorem genesis_g0 : Genesis g0 := by
  refine ⟨fun a => ⟨⟨{1, 2}, fun x hx => ?_, ?_⟩, by simp [g0, U128]⟩, fun _ _ => rfl⟩
  · have h1 : x ≠ 1 := fun h => hx (by simp [h])
    have h2 : x ≠ 2 := fun h => hx (by simp [h])
    simp [g0, h1, h2]
  · simp [g0]

def demoOps : List Op :=
  [.place 7 1 4 30, .place 5 1 4 20, .place 9 1 4 1, .place 7 2 4 50, .release 7 1 4 10, .spend 5 1 4 [(3, 8), (2, 0), (4, 4)],
   .transfer 4 1 999 1]

/-- Pallet 7 holds 20 of account 1 and 50 of account 2, pallet 5 holds 8 of account 1. -/
def demo : St := exec cfg0 g0 demoOps

theorem demo_reach : Reach cfg0 (Outside cfg0) demo := by
  refine exec_reach _ (.init genesis_g0) ?_
  simp only [demoOps, List.forall_mem_cons, Outside, cfg0]
  exact ⟨by decide, by decide, by decide, by decide, by decide, ⟨by decide, by decide⟩, by decide, fun _ h => nomatch h⟩

/-! ## C34 -/

/-- C34: for every asset the holding account has at least the sum of all holds of all accounts and pallets. -/
theorem C34_backed {c : Cfg} {s : St} (h : Reach c (Outside c) s) (a : AssetId) :
    ∃ n, TotalIs (held s a) n ∧ n ≤ s.ledger.bal a c.pot := h.hi.backed a

/-- C34: balances of every asset keep adding up to its issuance; holding, releasing and spending do not change
the issuance. -/
theorem C34_conserved {c : Cfg} {s s' : St} (h : Reach c (Outside c) s) :
    s.ledger.Sound ∧
    (∀ p w a amt, w ≠ c.pot → (step c s (.place p w a amt) = .ok s' ∨ step c s (.release p w a amt) = .ok s') →
      s'.ledger.iss = s.ledger.iss) ∧
    (∀ p w a xs, (∀ x ∈ xs, x.1 ≠ c.pot) → step c s (.spend p w a xs) = .ok s' → s'.ledger.iss = s.ledger.iss) := by
  refine ⟨h.hi.sound, ?_, ?_⟩
  · rintro p w a amt hw (hs | hs)
    · exact (Ledger.transfer_ok (place_ok hs h.hi hw).2.1).2.1
    · exact (Ledger.transfer_ok (release_ok hs h.hi hw).2.2.1).2.1
  · intro p w a xs hx hs
    exact (spend_ok hs h.hi hx).2.2.1

theorem has_of_hold {l : Entries} {p : Nat} (h : 0 < holdOf l p) : has l p = true := by
  by_contra hn
  rw [holdOf_not hn] at h
  exact lt_irrefl _ h

/-- C34: whatever is held can be given back, at any time. -/
theorem C34_release_succeeds {c : Cfg} {s : St} (h : Reach c (Outside c) s) {p : Nat} {w : Acct} {a : AssetId} {amt : Nat}
    (h0 : 0 < amt) (hle : amt ≤ hold s p w a) : ∃ s', step c s (.release p w a amt) = .ok s' := by
  obtain ⟨n, hn, hb⟩ := h.hi.backed a
  have h1 := hn.le w
  have h2 : holdOf (s.holds a w) p ≤ sumOf (s.holds a w) := holdOf_le
  unfold hold at hle
  have hd : decrease (s.holds a w) p amt = .ok (if holdOf (s.holds a w) p - amt = 0
      then (s.holds a w).filter (fun e => decide (e.1 ≠ p)) else setAt (s.holds a w) p (holdOf (s.holds a w) p - amt)) := by
    unfold decrease
    rw [ensure_pos (has_of_hold (by omega)), ensure_pos hle]
    rfl
  have ht : ∃ L, s.ledger.transfer a c.pot w amt = .ok L := by
    unfold Ledger.transfer
    rw [if_pos (by omega)]
    exact ⟨_, rfl⟩
  obtain ⟨L, hL⟩ := ht
  generalize (if holdOf (s.holds a w) p - amt = 0
    then (s.holds a w).filter (fun e => decide (e.1 ≠ p)) else setAt (s.holds a w) p (holdOf (s.holds a w) p - amt)) = l at hd
  refine ⟨setHolds s L a w l, ?_⟩
  change release c s p w a amt = _
  unfold release
  rw [hd]
  change (s.ledger.transfer a c.pot w amt >>= _) = _
  rw [hL]
  rfl

theorem payAll_succeeds {a : AssetId} {src : Acct} : ∀ {xs : List (Acct × Nat)} {L : Ledger}, (∀ x ∈ xs, x.1 ≠ src) →
    (xs.map Prod.snd).sum ≤ L.bal a src → ∃ L', payAll L a src xs = .ok L'
  | [], L, _, _ => ⟨L, rfl⟩
  | x :: xs, L, hn, hle => by
    rw [List.map_cons, List.sum_cons] at hle
    unfold payAll
    split
    · exact payAll_succeeds (fun y hy => hn y (List.mem_cons_of_mem _ hy)) (by omega)
    · have ht : ∃ L1, L.transfer a src x.1 x.2 = .ok L1 := by
        unfold Ledger.transfer
        rw [if_pos (by omega)]
        exact ⟨_, rfl⟩
      obtain ⟨L1, hL1⟩ := ht
      obtain ⟨_, _, _, t4⟩ := Ledger.transfer_ok hL1
      have e := t4 src
      rw [if_pos rfl, if_neg (Ne.symm (hn x List.mem_cons_self))] at e
      obtain ⟨L', hL'⟩ := payAll_succeeds (L := L1) (fun y hy => hn y (List.mem_cons_of_mem _ hy))
        (show (xs.map Prod.snd).sum ≤ L1.bal a src by omega)
      exact ⟨L', by rw [hL1]; exact hL'⟩

/-- C34: and can be paid out in any split. -/
theorem C34_spend_succeeds {c : Cfg} {s : St} (h : Reach c (Outside c) s) {p : Nat} {w : Acct} {a : AssetId}
    {xs : List (Acct × Nat)} (hx : ∀ x ∈ xs, x.1 ≠ c.pot) (h0 : 0 < (xs.map Prod.snd).sum)
    (hle : (xs.map Prod.snd).sum ≤ hold s p w a) : ∃ s', step c s (.spend p w a xs) = .ok s' := by
  obtain ⟨n, hn, hb⟩ := h.hi.backed a
  have h1 := hn.le w
  have h2 : holdOf (s.holds a w) p ≤ sumOf (s.holds a w) := holdOf_le
  have h3 := h.hi.sound.bal_lt a c.pot
  unfold hold at hle
  have he : total xs = (xs.map Prod.snd).sum := Nat.mod_eq_of_lt (by omega)
  obtain ⟨L, hL⟩ := payAll_succeeds (L := s.ledger) (a := a) hx (by omega)
  have hd : ∃ l, decrease (s.holds a w) p (total xs) = .ok l := by
    unfold decrease
    rw [he, ensure_pos (has_of_hold (by omega)), ensure_pos hle]
    exact ⟨_, rfl⟩
  obtain ⟨l, hl⟩ := hd
  refine ⟨setHolds s L a w l, ?_⟩
  change spend c s p w a xs = _
  unfold spend splitTransfer
  rw [hl, ensure_pos (show total xs ≤ s.ledger.bal a c.pot by omega)]
  change (payAll s.ledger a c.pot xs >>= _) = _
  rw [hL]
  rfl

/-- Non-vacuity: 78 are held of asset 4 and the holding account has 79 (one came by an ordinary transfer). -/
example : hold demo 7 1 4 = 20 ∧ hold demo 5 1 4 = 8 ∧ hold demo 7 2 4 = 50 ∧ held demo 4 1 = 28 ∧
    demo.ledger.bal 4 999 = 79 ∧ demo.ledger.bal 4 3 = 8 ∧ demo.ledger.bal 4 1 = 59 ∧
    (step cfg0 demo (.release 7 1 4 20)).isOk = true ∧ (step cfg0 demo (.release 7 1 4 21)).isOk = false ∧
    (step cfg0 demo (.spend 7 2 4 [(8, 25), (9, 25)])).isOk = true ∧
    (step cfg0 demo (.spend 7 2 4 [(8, 25), (9, 26)])).isOk = false := by decide +kernel

/-! ## C35 -/

/-- C35: placing a hold takes exactly the amount from the account, adds it to this pallet's hold of this account
and asset, and to no other. -/
theorem C35_place {c : Cfg} {s s' : St} (h : Reach c (Outside c) s) {p : Nat} {w : Acct} {a : AssetId} {amt : Nat}
    (hw : w ≠ c.pot) (hs : step c s (.place p w a amt) = .ok s') :
    (∀ q y b, hold s' q y b = hold s q y b + if b = a ∧ y = w ∧ q = p then amt else 0) ∧
    (∀ b y, s'.ledger.bal b y + (if b = a ∧ y = w then amt else 0) =
      s.ledger.bal b y + (if b = a ∧ y = c.pot then amt else 0)) := by
  obtain ⟨_, hL, hh⟩ := place_ok hs h.hi hw
  obtain ⟨_, _, t3, t4⟩ := Ledger.transfer_ok hL
  refine ⟨fun q y b => hh b y q, fun b y => ?_⟩
  by_cases hb : b = a
  · subst hb; simpa using t4 y
  · simp [hb, t3 b hb]

/-- C35: releasing gives the account exactly the amount back, takes it from this hold and from no other; more
than the hold cannot be released. -/
theorem C35_release {c : Cfg} {s s' : St} (h : Reach c (Outside c) s) {p : Nat} {w : Acct} {a : AssetId} {amt : Nat}
    (hw : w ≠ c.pot) (hs : step c s (.release p w a amt) = .ok s') :
    amt ≤ hold s p w a ∧
    (∀ q y b, hold s' q y b + (if b = a ∧ y = w ∧ q = p then amt else 0) = hold s q y b) ∧
    (∀ b y, s'.ledger.bal b y + (if b = a ∧ y = c.pot then amt else 0) =
      s.ledger.bal b y + (if b = a ∧ y = w then amt else 0)) := by
  obtain ⟨_, hle, hL, hh⟩ := release_ok hs h.hi hw
  obtain ⟨_, _, t3, t4⟩ := Ledger.transfer_ok hL
  refine ⟨hle, fun q y b => hh b y q, fun b y => ?_⟩
  by_cases hb : b = a
  · subst hb; simpa using t4 y
  · simp [hb, t3 b hb]

/-- C35: spending pays every listed payee exactly its amounts, takes the sum from this hold and from no other;
more than the hold cannot be spent. -/
theorem C35_spend {c : Cfg} {s s' : St} (h : Reach c (Outside c) s) {p : Nat} {w : Acct} {a : AssetId}
    {xs : List (Acct × Nat)} (hx : ∀ x ∈ xs, x.1 ≠ c.pot) (hs : step c s (.spend p w a xs) = .ok s') :
    (xs.map Prod.snd).sum ≤ hold s p w a ∧
    (∀ q y b, hold s' q y b + (if b = a ∧ y = w ∧ q = p then (xs.map Prod.snd).sum else 0) = hold s q y b) ∧
    (∀ b y, y ≠ c.pot → s'.ledger.bal b y = s.ledger.bal b y +
      if b = a then (xs.map (fun x => if x.1 = y then x.2 else 0)).sum else 0) := by
  obtain ⟨_, hle, _, t3, t4, hh⟩ := spend_ok hs h.hi hx
  refine ⟨hle, fun q y b => hh b y q, fun b y hy => ?_⟩
  by_cases hb : b = a
  · subst hb
    have e := t4 y
    rw [if_neg hy] at e
    rw [if_pos rfl]
    exact e
  · simp [hb, t3 b hb]

/-- C35: a call that is not a hold call of the pallet for the account and asset leaves the hold alone. -/
theorem C35_others {c : Cfg} {s s' : St} (h : Reach c (Outside c) s) {op : Op} (hg : Outside c op)
    (hs : step c s op = .ok s') {p : Nat} {w : Acct} {a : AssetId} (hne : hold s' p w a ≠ hold s p w a) :
    (∃ x, op = .place p w a x) ∨ (∃ x, op = .release p w a x) ∨ (∃ xs, op = .spend p w a xs) := by
  cases op with
  | place q y b x =>
    have := (C35_place h hg hs).1 p w a
    by_cases hx : a = b ∧ w = y ∧ p = q
    · obtain ⟨rfl, rfl, rfl⟩ := hx; exact Or.inl ⟨x, rfl⟩
    · rw [if_neg hx] at this; exact absurd this hne
  | release q y b x =>
    have := (C35_release h hg hs).2.1 p w a
    by_cases hx : a = b ∧ w = y ∧ p = q
    · obtain ⟨rfl, rfl, rfl⟩ := hx; exact Or.inr (Or.inl ⟨x, rfl⟩)
    · rw [if_neg hx] at this; exact absurd this hne
  | spend q y b xs =>
    have := (C35_spend h hg.2 hs).2.1 p w a
    by_cases hx : a = b ∧ w = y ∧ p = q
    · obtain ⟨rfl, rfl, rfl⟩ := hx; exact Or.inr (Or.inr ⟨xs, rfl⟩)
    · rw [if_neg hx] at this; exact absurd this hne
  | split b src xs =>
    simp only [step, bind_ok, pure_ok] at hs
    obtain ⟨L, _, rfl⟩ := hs
    exact absurd rfl hne
  | transfer b src dst x =>
    simp only [step, bind_ok, pure_ok] at hs
    obtain ⟨L, _, rfl⟩ := hs
    exact absurd rfl hne
  | mint b dst x =>
    simp only [step, bind_ok, pure_ok] at hs
    obtain ⟨L, _, rfl⟩ := hs
    exact absurd rfl hne
  | burn b src x =>
    simp only [step, bind_ok, pure_ok] at hs
    obtain ⟨L, _, rfl⟩ := hs
    exact absurd rfl hne

/-- C35: the lists stay strictly sorted by pallet and within the limit, so that a binary search finds the one
entry of a pallet. -/
theorem C35_sorted {c : Cfg} {s : St} (h : Reach c (Outside c) s) (a : AssetId) (w : Acct) :
    ((s.holds a w).map Prod.fst).Pairwise (· < ·) ∧ (s.holds a w).length ≤ c.maxHolds := ⟨h.hi.sorted a w, h.hi.len a w⟩

/-- Non-vacuity: the entries were inserted in order of pallet; a third pallet was refused. -/
example : demo.holds 4 1 = [(5, 8), (7, 20)] ∧ errIs (step cfg0 demo (.place 9 1 4 1)) "MaxHolds" = true := by
  decide +kernel

/-! ## C79 -/

/-- The issuer of an asset may also burn from the holding account
(/repo/pallet/assets-ext/src/lib.rs:300-316 `burn_from` passes any account to `pallet_assets::burn`, which only
checks that the caller administers the asset). -/
def WithIssuer (c : Cfg) : Op → Prop
  | .burn _ _ _ => True
  | op => Outside c op

/-- C79 does not hold: an issuer can burn the held money, after which a hold can no longer be released. -/
theorem C79_issuer_refuted : ∃ (c : Cfg) (s : St), Reach c (WithIssuer c) s ∧
    0 < hold s 7 1 4 ∧ ∀ s', step c s (.release 7 1 4 (hold s 7 1 4)) ≠ .ok s' := by
  refine ⟨cfg0, exec cfg0 g0 [.place 7 1 4 30, .burn 4 999 30], exec_reach _ (.init genesis_g0) ?_, by decide +kernel, ?_⟩
  · simp [WithIssuer, Outside, cfg0]
  · have : (step cfg0 (exec cfg0 g0 [.place 7 1 4 30, .burn 4 999 30]) (.release 7 1 4
      (hold (exec cfg0 g0 [.place 7 1 4 30, .burn 4 999 30]) 7 1 4))).isOk = false := by decide +kernel
    intro s' hs
    rw [hs] at this
    cases this

/-- C79, the part that holds: nothing but release, spending and burning by the issuer reduces the money of the
holding account. -/
theorem C79_only_holds_partial {c : Cfg} {s s' : St} {op : Op} (hg : WithIssuer c op) (hs : step c s op = .ok s') {a : AssetId}
    (hlt : s'.ledger.bal a c.pot < s.ledger.bal a c.pot) :
    (∃ p w x, op = .release p w a x) ∨ (∃ p w xs, op = .spend p w a xs) ∨ (∃ x, op = .burn a c.pot x) := by
  have payMono : ∀ {b : AssetId} {src : Acct} {xs : List (Acct × Nat)} {L : Ledger}, payAll s.ledger b src xs = .ok L →
      L.bal a c.pot < s.ledger.bal a c.pot → a = b ∧ src = c.pot := by
    intro b src xs L hL hl
    obtain ⟨_, t3, _, t4⟩ := payAll_ok hL
    by_cases hb : a = b
    · subst hb
      refine ⟨rfl, ?_⟩
      by_contra hn
      have e := t4 c.pot
      rw [if_neg (fun hx => hn hx.symm)] at e
      omega
    · rw [t3 a hb] at hl; exact absurd hl (lt_irrefl _)
  cases op with
  | place q y b x =>
    exfalso
    simp only [step, place, bind_ok, pure_ok] at hs
    obtain ⟨l, _, L, hL, rfl⟩ := hs
    exact absurd hlt (not_lt.mpr (Ledger.transfer_mono hL a c.pot (fun _ => Ne.symm hg)))
  | release q y b x =>
    simp only [step, release, bind_ok, pure_ok] at hs
    obtain ⟨l, _, L, hL, rfl⟩ := hs
    by_cases hb : a = b
    · subst hb; exact Or.inl ⟨q, y, x, rfl⟩
    · exact absurd hlt (not_lt.mpr (Ledger.transfer_mono hL a c.pot (fun hx => absurd hx hb)))
  | spend q y b xs =>
    simp only [step, spend, splitTransfer, bind_ok, ensure_ok, pure_ok] at hs
    obtain ⟨l, _, L, ⟨_, _, hL⟩, rfl⟩ := hs
    obtain ⟨rfl, _⟩ := payMono hL hlt
    exact Or.inr (Or.inl ⟨q, y, xs, rfl⟩)
  | split b src xs =>
    simp only [step, splitTransfer, bind_ok, ensure_ok, pure_ok] at hs
    obtain ⟨L, ⟨_, _, hL⟩, rfl⟩ := hs
    exact absurd (payMono hL hlt).2 hg
  | transfer b src dst x =>
    simp only [step, bind_ok, pure_ok] at hs
    obtain ⟨L, hL, rfl⟩ := hs
    exact absurd hlt (not_lt.mpr (Ledger.transfer_mono hL a c.pot (fun _ => Ne.symm hg)))
  | mint b dst x =>
    simp only [step, bind_ok, pure_ok] at hs
    obtain ⟨L, hL, rfl⟩ := hs
    exact absurd hlt (not_lt.mpr (Ledger.mint_mono hL a c.pot))
  | burn b src x =>
    simp only [step, bind_ok, pure_ok] at hs
    obtain ⟨L, hL, rfl⟩ := hs
    by_cases hx : a = b ∧ src = c.pot
    · obtain ⟨rfl, rfl⟩ := hx; exact Or.inr (Or.inr ⟨x, rfl⟩)
    · exact absurd hlt (not_lt.mpr (Ledger.burn_mono hL a c.pot (fun h1 h2 => hx ⟨h1, h2.symm⟩)))

/-- Non-vacuity: a release takes from the holding account. -/
example : (exec cfg0 demo [.release 7 1 4 20]).ledger.bal 4 999 = 59 := by decide +kernel

end Verif.Holds
