import Verif.Sft.Props

/-!
# Who may change a semi-fungible collection: C83
-/

namespace Verif.Sft

open Verif.Nft (Flags PubMint)

/-- The caller and the collection of the calls that manage a collection. -/
def management : Op → Option (Acct × Nat)
  | .createToken w id _ _ _ _ => some (w, id)
  | .setOwner w id _ => some (w, id)
  | .setMax w id _ _ => some (w, id)
  | .setRoyalties w id _ => some (w, id)
  | .setPubMint w id _ _ => some (w, id)
  | .setFlags w id _ => some (w, id)
  | _ => none

/-- The settings of a collection are the same in both states: its record, its switches, its public mint settings, the
tokens it has and their maximum issuances. -/
structure SameSettings (s s' : St) (id : Nat) : Prop where
  coll : s'.coll id = s.coll id
  flags : s'.flags id = s.flags id
  pubMint : s'.pubMint id = s.pubMint id
  exist : ∀ n, (s'.tok id n).isSome = (s.tok id n).isSome
  max : ∀ n, maxIss s' id n = maxIss s id n

theorem Moves.settings {s s' : St} {j : Nat} {m p : Nat → Acct → Nat} {i k : Nat → Nat} (h : Moves s s' j m p i k) (id : Nat) :
    SameSettings s s' id := by
  refine ⟨by rw [h.coll], by rw [h.flags], by rw [h.pubMint], fun n => ?_, fun n => ?_⟩
  · by_cases hj : id = j
    · subst hj; exact h.exist n
    · rw [h.other id hj]
  · by_cases hj : id = j
    · subst hj; exact h.max n
    · unfold maxIss; rw [h.other id hj]

theorem setTok_settings {s : St} {j n : Nat} {t t' : Tok} (ht : s.tok j n = some t) (hm : t'.max = t.max) (id : Nat) :
    SameSettings s (setTok s j n t') id := by
  refine ⟨rfl, rfl, rfl, fun k => ?_, fun k => ?_⟩
  · by_cases hj : id = j
    · subst hj
      by_cases hk : k = n
      · subst hk; rw [tok_set_same, ht]; rfl
      · rw [tok_set_ne _ _ _ _ hk]
    · rw [tok_set_other _ _ _ _ hj]
  · unfold maxIss
    by_cases hj : id = j
    · subst hj
      by_cases hk : k = n
      · subst hk; rw [tok_set_same, ht]; exact hm
      · rw [tok_set_ne _ _ _ _ hk]
    · rw [tok_set_other _ _ _ _ hj]

/-- C83: the settings of a collection, the tokens it has and their maximum issuances change only in calls made by the
collection's owner for that collection. -/
theorem C83_owner_only {c : Cfg} {s s' : St} (h : Reach c s) {op : Op} (hs : step c s op = .ok s') {id : Nat} {k : Coll}
    (hk : s.coll id = some k) : SameSettings s s' id ∨ management op = some (k.owner, id) := by
  have hsi := h.si
  have refl : SameSettings s s id := ⟨rfl, rfl, rfl, fun _ => rfl, fun _ => rfl⟩
  cases op with
  | createColl o r =>
    simp only [step, createColl, bind_ok, ensure_ok, okOr_ok, pure_ok] at hs
    obtain ⟨j, hj, _, _, _, _, rfl⟩ := hs
    have hne : id ≠ j := by rintro rfl; rw [hsi.fresh hj] at hk; cases hk
    exact Or.inl ⟨upd_ne _ _ hne, rfl, rfl, fun _ => rfl, fun _ => rfl⟩
  | takeUuid =>
    simp only [step, bind_ok, okOr_ok, pure_ok] at hs
    obtain ⟨_, _, rfl⟩ := hs
    exact Or.inl ⟨rfl, rfl, rfl, fun _ => rfl, fun _ => rfl⟩
  | createToken w j i m o e =>
    simp only [step, createToken, bind_ok, ensure_ok, okOr_ok, pure_ok] at hs
    obtain ⟨_, _, k', hk', _, hw, _, _, _, _, _, _, rfl⟩ := hs
    by_cases hj : id = j
    · subst hj
      rw [hk] at hk'; cases hk'
      exact Or.inr (by rw [hw]; rfl)
    · refine Or.inl ⟨upd_ne _ _ hj, rfl, rfl, fun n => ?_, fun n => ?_⟩
      · change ((setTok s j k'.next _).tok id n).isSome = _
        rw [tok_set_other _ _ _ _ hj]
      · change ((setTok s j k'.next _).tok id n).bind _ = _
        rw [tok_set_other _ _ _ _ hj]; rfl
  | mint w j xs o => exact Or.inl ((mint_ok hsi hs).2.2.2.settings id)
  | transfer w j xs n => exact Or.inl ((transfer_ok hsi hs).2.2.2.2.2.settings id)
  | burn w j xs => exact Or.inl ((burn_ok hsi hs).2.2.2.2.settings id)
  | setOwner w j n =>
    simp only [step, setOwner, bind_ok, ensure_ok, okOr_ok, pure_ok] at hs
    obtain ⟨k', hk', _, hw, rfl⟩ := hs
    by_cases hj : id = j
    · subst hj
      rw [hk] at hk'; cases hk'
      exact Or.inr (by rw [hw]; rfl)
    · exact Or.inl ⟨upd_ne _ _ hj, rfl, rfl, fun _ => rfl, fun _ => rfl⟩
  | setMax w j n m =>
    simp only [step, setMax, bind_ok, ensure_ok, okOr_ok, pure_ok] at hs
    obtain ⟨_, _, k', hk', _, hw, t, ht, _, _, _, _, rfl⟩ := hs
    by_cases hj : id = j
    · subst hj
      rw [hk] at hk'; cases hk'
      exact Or.inr (by rw [hw]; rfl)
    · refine Or.inl ⟨rfl, rfl, rfl, fun n => ?_, fun n => ?_⟩
      · rw [tok_set_other _ _ _ _ hj]
      · unfold maxIss; rw [tok_set_other _ _ _ _ hj]
  | setRoyalties w j r =>
    simp only [step, setRoyalties, bind_ok, ensure_ok, okOr_ok, pure_ok] at hs
    obtain ⟨k', hk', _, hw, _, _, rfl⟩ := hs
    by_cases hj : id = j
    · subst hj
      rw [hk] at hk'; cases hk'
      exact Or.inr (by rw [hw]; rfl)
    · exact Or.inl ⟨upd_ne _ _ hj, rfl, rfl, fun _ => rfl, fun _ => rfl⟩
  | setPubMint w j n p =>
    simp only [step, setPubMint, bind_ok, ensure_ok, okOr_ok, pure_ok] at hs
    obtain ⟨k', hk', _, hw, rfl⟩ := hs
    by_cases hj : id = j
    · subst hj
      rw [hk] at hk'; cases hk'
      exact Or.inr (by rw [hw]; rfl)
    · exact Or.inl ⟨rfl, rfl, upd_ne _ _ hj, fun _ => rfl, fun _ => rfl⟩
  | setFlags w j f =>
    simp only [step, setFlags, bind_ok, ensure_ok, okOr_ok, pure_ok] at hs
    obtain ⟨k', hk', _, hw, rfl⟩ := hs
    by_cases hj : id = j
    · subst hj
      rw [hk] at hk'; cases hk'
      exact Or.inr (by rw [hw]; rfl)
    · exact Or.inl ⟨rfl, upd_ne _ _ hj, rfl, fun _ => rfl, fun _ => rfl⟩
  | reserve j n a w =>
    simp only [step, reserve, bind_ok, okOr_ok, pure_ok] at hs
    obtain ⟨t, ht, o, _, rfl⟩ := hs
    exact Or.inl (setTok_settings (t' := { t with owned := o }) ht rfl id)
  | unreserve j n a w =>
    simp only [step, unreserve, bind_ok, okOr_ok, pure_ok] at hs
    obtain ⟨t, ht, o, _, rfl⟩ := hs
    exact Or.inl (setTok_settings (t' := { t with owned := o }) ht rfl id)
  | approveAll a b j ok =>
    simp only [step, approveAll, bind_ok, ensure_ok, pure_ok] at hs
    obtain ⟨_, _, rfl⟩ := hs
    exact Or.inl ⟨rfl, rfl, rfl, fun _ => rfl, fun _ => rfl⟩
  | safeTransfer a j xs f t =>
    simp only [step, safeTransfer, bind_ok, ensure_ok] at hs
    obtain ⟨_, _, hs⟩ := hs
    exact Or.inl ((transfer_ok hsi hs).2.2.2.2.2.settings id)
  | safeBurn a j xs f =>
    simp only [step, safeBurn, bind_ok, ensure_ok] at hs
    obtain ⟨_, _, hs⟩ := hs
    exact Or.inl ((burn_ok hsi hs).2.2.2.2.settings id)
  | ledger L =>
    cases hs
    exact Or.inl ⟨rfl, rfl, rfl, fun _ => rfl, fun _ => rfl⟩

example : (demo.coll 100).map Coll.owner = some 1 ∧ (step cfg0 demo (.setFlags 1 100 ⟨false, true, true⟩)).isOk = true ∧
    (step cfg0 demo (.setFlags 2 100 ⟨false, true, true⟩)).isOk = false ∧
    (step cfg0 demo (.createToken 2 100 5 none none true)).isOk = false := by decide +kernel

/-- C83: what an operator may do changes only when the holder says so, and then to what the holder says. -/
theorem C83_operators {c : Cfg} {s s' : St} (h : Reach c s) {op : Op} (hs : step c s op = .ok s') (holder operator : Acct)
    (id : Nat) :
    s'.forAll holder id operator = s.forAll holder id operator ∨
    ∃ ok, op = .approveAll holder operator id ok ∧ s'.forAll holder id operator = ok := by
  have hsi := h.si
  cases op with
  | createColl o r =>
    simp only [step, createColl, bind_ok, ensure_ok, okOr_ok, pure_ok] at hs
    obtain ⟨j, hj, _, _, _, _, rfl⟩ := hs
    exact Or.inl rfl
  | takeUuid =>
    simp only [step, bind_ok, okOr_ok, pure_ok] at hs
    obtain ⟨_, _, rfl⟩ := hs
    exact Or.inl rfl
  | createToken w j i m o e =>
    simp only [step, createToken, bind_ok, ensure_ok, okOr_ok, pure_ok] at hs
    obtain ⟨_, _, k', hk', _, hw, _, _, _, _, _, _, rfl⟩ := hs
    exact Or.inl rfl
  | mint w j xs o => exact Or.inl (by rw [(mint_ok hsi hs).2.2.2.forAll])
  | transfer w j xs n => exact Or.inl (by rw [(transfer_ok hsi hs).2.2.2.2.2.forAll])
  | burn w j xs => exact Or.inl (by rw [(burn_ok hsi hs).2.2.2.2.forAll])
  | setOwner w j n =>
    simp only [step, setOwner, bind_ok, ensure_ok, okOr_ok, pure_ok] at hs
    obtain ⟨k', hk', _, hw, rfl⟩ := hs
    exact Or.inl rfl
  | setMax w j n m =>
    simp only [step, setMax, bind_ok, ensure_ok, okOr_ok, pure_ok] at hs
    obtain ⟨_, _, k', hk', _, hw, t, ht, _, _, _, _, rfl⟩ := hs
    exact Or.inl rfl
  | setRoyalties w j r =>
    simp only [step, setRoyalties, bind_ok, ensure_ok, okOr_ok, pure_ok] at hs
    obtain ⟨k', hk', _, hw, _, _, rfl⟩ := hs
    exact Or.inl rfl
  | setPubMint w j n p =>
    simp only [step, setPubMint, bind_ok, ensure_ok, okOr_ok, pure_ok] at hs
    obtain ⟨k', hk', _, hw, rfl⟩ := hs
    exact Or.inl rfl
  | setFlags w j f =>
    simp only [step, setFlags, bind_ok, ensure_ok, okOr_ok, pure_ok] at hs
    obtain ⟨k', hk', _, hw, rfl⟩ := hs
    exact Or.inl rfl
  | reserve j n a w =>
    simp only [step, reserve, bind_ok, okOr_ok, pure_ok] at hs
    obtain ⟨t, ht, o, _, rfl⟩ := hs
    exact Or.inl rfl
  | unreserve j n a w =>
    simp only [step, unreserve, bind_ok, okOr_ok, pure_ok] at hs
    obtain ⟨t, ht, o, _, rfl⟩ := hs
    exact Or.inl rfl
  | approveAll a b j ok =>
    simp only [step, approveAll, bind_ok, ensure_ok, pure_ok] at hs
    obtain ⟨_, _, rfl⟩ := hs
    dsimp only
    by_cases h1 : holder = a
    · subst h1
      rw [upd_same]
      by_cases h2 : id = j
      · subst h2
        rw [upd_same]
        by_cases h3 : operator = b
        · subst h3
          exact Or.inr ⟨ok, rfl, upd_same _ _ _⟩
        · exact Or.inl (upd_ne _ _ h3)
      · rw [upd_ne _ _ h2]; exact Or.inl rfl
    · rw [upd_ne _ _ h1]; exact Or.inl rfl
  | safeTransfer a j xs f t =>
    simp only [step, safeTransfer, bind_ok, ensure_ok] at hs
    obtain ⟨_, _, hs⟩ := hs
    exact Or.inl (by rw [(transfer_ok hsi hs).2.2.2.2.2.forAll])
  | safeBurn a j xs f =>
    simp only [step, safeBurn, bind_ok, ensure_ok] at hs
    obtain ⟨_, _, hs⟩ := hs
    exact Or.inl (by rw [(burn_ok hsi hs).2.2.2.2.forAll])
  | ledger L =>
    cases hs
    exact Or.inl rfl

/-- C83: after the call, the operator is approved exactly if the holder approved. -/
theorem C83_approval_effect {c : Cfg} {s s' : St} {holder operator : Acct} {id : Nat} {ok : Bool}
    (hs : step c s (.approveAll holder operator id ok) = .ok s') : s'.forAll holder id operator = ok := by
  simp only [step, approveAll, bind_ok, ensure_ok, pure_ok] at hs
  obtain ⟨_, _, rfl⟩ := hs
  dsimp only
  rw [upd_same, upd_same, upd_same]

example : demo.forAll 2 100 9 = true ∧
    ((step cfg0 demo (.approveAll 2 9 100 false)).toOption.map (fun s => s.forAll 2 100 9)) = some false := by decide +kernel

end Verif.Sft
