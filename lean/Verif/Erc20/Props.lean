import Verif.Erc20.Model

/-!
# Properties of the ERC-20 interface (C55, C87)
-/

namespace Verif.Erc20

/-! ## Vocabulary -/

/-- What an operation draws from owner `o` in asset `a` on the strength of `p`'s allowance. -/
def drawn (o : Acct) (a : AssetId) (p : Acct) : Op → Nat
  | .transferFrom w b src _ x => if w = p ∧ b = a ∧ src = o then min x (U128 - 1) else 0
  | _ => 0

/-- The operation is an approval by `o` for `p` in asset `a`. -/
def Approves (o : Acct) (a : AssetId) (p : Acct) (op : Op) : Prop := ∃ x, op = .approve o a p x

theorem allowance_set {s : St} {o : Acct} {a : AssetId} {p : Acct} {v : Option Nat} (o' : Acct) (a' : AssetId) (p' : Acct) :
    (setAllow s o a p v).allow o' a' p' = if o' = o ∧ a' = a ∧ p' = p then v else s.allow o' a' p' := by
  unfold setAllow
  by_cases h1 : o' = o
  · subst h1
    by_cases h2 : a' = a
    · subst h2
      simp [upd_apply]
    · simp [upd_ne _ _ h2, h2]
  · simp [upd_ne _ _ h1, h1]

theorem transferFrom_ok {s s' : St} {w : Acct} {a : AssetId} {o r : Acct} {x : Nat}
    (h : step s (.transferFrom w a o r x) = .ok s') :
    sat x ≤ allowance s o a w ∧ s.ledger.transfer a o r (sat x) = .ok s'.ledger ∧
    (∀ o' a' p', allowance s' o' a' p' + drawn o' a' p' (.transferFrom w a o r x) = allowance s o' a' p') := by
  simp only [step, transferFrom, updateApproval, bind_ok, okOr_ok, ensure_ok, pure_ok] at h
  obtain ⟨s1, ⟨v, hv, _, hx, rfl⟩, L, hL, rfl⟩ := h
  refine ⟨?_, hL, fun o' a' p' => ?_⟩
  · unfold allowance; rw [hv]; exact hx
  · change ((setAllow s o a w _).allow o' a' p').getD 0 + _ = _
    rw [allowance_set]
    simp only [allowance, drawn]
    by_cases h1 : o' = o ∧ a' = a ∧ p' = w
    · obtain ⟨rfl, rfl, rfl⟩ := h1
      simp only [and_self, if_true, hv, Option.getD_some]
      change _ + sat x = v
      by_cases h0 : v - sat x = 0
      · rw [if_pos h0]; simp only [Option.getD_none]; omega
      · rw [if_neg h0]; simp only [Option.getD_some]; omega
    · rw [if_neg h1, if_neg (fun h => h1 ⟨h.2.2.symm, h.2.1.symm, h.1.symm⟩)]
      rfl

/-- How one operation changes an allowance. -/
theorem step_allowance {s s' : St} {op : Op} (h : step s op = .ok s') (o : Acct) (a : AssetId) (p : Acct)
    (hn : ¬ Approves o a p op) : allowance s' o a p + drawn o a p op = allowance s o a p := by
  cases op with
  | approve w b q x =>
    simp only [step, approve, approval, bind_ok, ensure_ok, pure_ok] at h
    obtain ⟨_, _, rfl⟩ := h
    unfold allowance drawn
    rw [allowance_set, if_neg]
    · rfl
    · rintro ⟨rfl, rfl, rfl⟩
      exact hn ⟨x, rfl⟩
  | transfer w b r x =>
    simp only [step, transfer, bind_ok, pure_ok] at h
    obtain ⟨L, _, rfl⟩ := h
    rfl
  | transferFrom w b src r x => exact (transferFrom_ok h).2.2 o a p
  | ledger L => cases h; rfl

/-! ## Demonstration -/

def L0 : Ledger where
  bal := fun _ y => if y = 1 then 100 else 0
  iss := fun _ => 100

def g0 : St := ⟨L0, fun _ _ _ => none⟩

/-! ## C55 -/

/-- C55: between two approvals, what a spender draws from the owner plus what is left of the allowance is exactly the
allowance at the start. So it never exceeds it, whatever others do meanwhile. -/
theorem C55_bound {s s' : St} {ops : List Op} (h : Run s ops s') {o : Acct} {a : AssetId} {p : Acct}
    (hn : ∀ op ∈ ops, ¬ Approves o a p op) :
    (ops.map (drawn o a p)).sum + allowance s' o a p = allowance s o a p := by
  induction h with
  | nil => simp
  | cons hs _ ih =>
    have h1 := step_allowance hs o a p (hn _ List.mem_cons_self)
    have h2 := ih (fun op hop => hn op (List.mem_cons_of_mem _ hop))
    rw [List.map_cons, List.sum_cons]
    omega

/-- C55: an approval sets the allowance to the amount approved (capped at the largest balance), and no other allowance. -/
theorem C55_approve {s s' : St} {o : Acct} {a : AssetId} {p : Acct} {x : Nat} (h : step s (.approve o a p x) = .ok s') :
    allowance s' o a p = min x (U128 - 1) ∧ s'.ledger = s.ledger ∧
      ∀ o' a' p', ¬ (o' = o ∧ a' = a ∧ p' = p) → allowance s' o' a' p' = allowance s o' a' p' := by
  simp only [step, approve, approval, bind_ok, ensure_ok, pure_ok] at h
  obtain ⟨_, _, rfl⟩ := h
  refine ⟨?_, rfl, fun o' a' p' hne => ?_⟩
  · unfold allowance; rw [allowance_set, if_pos ⟨rfl, rfl, rfl⟩]; rfl
  · unfold allowance; rw [allowance_set, if_neg hne]

/-- C55: everybody can approve any amount to anybody but themselves. -/
theorem C55_self {s : St} {o : Acct} {a : AssetId} {p : Acct} {x : Nat} :
    (∃ s', step s (.approve o a p x) = .ok s') ↔ o ≠ p := by
  simp only [step, approve, approval, bind_ok, ensure_ok, pure_ok]
  constructor
  · rintro ⟨_, _, h, _⟩; exact h
  · intro h; exact ⟨_, (), h, rfl⟩

/-- C55: over a whole history, what a spender has drawn since the beginning is at most the sum of the amounts the owner
approved for it. -/
theorem C55_total {s s' : St} {ops : List Op} (h : Run s ops s') (o : Acct) (a : AssetId) (p : Acct) :
    (ops.map (drawn o a p)).sum + allowance s' o a p ≤ allowance s o a p + (ops.map (fun op => match op with
      | .approve w b q x => if w = o ∧ b = a ∧ q = p then x else 0
      | _ => 0)).sum := by
  induction h with
  | nil => simp
  | cons hs _ ih =>
    rename_i s0 s1 s2 op ops _
    rw [List.map_cons, List.sum_cons, List.map_cons, List.sum_cons]
    by_cases hop : Approves o a p op
    · obtain ⟨x, rfl⟩ := hop
      have h1 := (C55_approve hs).1
      simp only [and_self, if_true, drawn]
      omega
    · have h1 := step_allowance hs o a p hop
      have := Nat.zero_le (match op with
        | .approve w b q x => if w = o ∧ b = a ∧ q = p then x else 0
        | _ => 0)
      omega

/-- Non-vacuity: account 2 draws 30 and 20 of the 60 it may draw from account 1; another 20 are refused. -/
example : (exec g0 [.approve 1 7 2 60, .transferFrom 2 7 1 3 30, .transfer 3 7 1 5, .transferFrom 2 7 1 2 20]).map
      (fun s => (allowance s 1 7 2, s.ledger.bal 7 1, s.ledger.bal 7 2, s.ledger.bal 7 3)) = some (10, 55, 20, 25) ∧
    (exec g0 [.approve 1 7 2 60, .transferFrom 2 7 1 3 30, .transfer 3 7 1 5, .transferFrom 2 7 1 2 20,
      .transferFrom 2 7 1 2 20]).isSome = false ∧
    ([Op.transferFrom 2 7 1 3 30, .transfer 3 7 1 5, .transferFrom 2 7 1 2 20].map (drawn 1 7 2)).sum = 50 := by
  decide +kernel

/-! ## C87: who can move an account's money through the interface -/

/-- C87: an account's balance of an asset goes down only by its own transfers or by transfers from it of an account that
has an allowance, and by at most the stated amount. -/
theorem C87_decrease {s s' : St} {op : Op} (h : step s op = .ok s') (hop : ∀ L, op ≠ .ledger L) {o : Acct} {a : AssetId}
    (hd : s'.ledger.bal a o < s.ledger.bal a o) :
    ∃ r x, (op = .transfer o a r x ∨ ∃ w, op = .transferFrom w a o r x ∧ min x (U128 - 1) ≤ allowance s o a w) ∧
      s.ledger.bal a o - s'.ledger.bal a o ≤ x := by
  have key : ∀ {L : Ledger} {b : AssetId} {src r : Acct} {x : Nat}, s.ledger.transfer b src r (sat x) = .ok L →
      L.bal a o < s.ledger.bal a o → b = a ∧ src = o ∧ s.ledger.bal a o - L.bal a o ≤ x := by
    intro L b src r x hL hd
    obtain ⟨_, _, h3, h4⟩ := Ledger.transfer_ok hL
    by_cases hb : a = b
    · subst hb
      have := h4 o
      by_cases ho : o = src
      · subst ho
        simp only [if_true] at this
        have hle : sat x ≤ x := Nat.min_le_left _ _
        refine ⟨rfl, rfl, ?_⟩
        split at this <;> omega
      · rw [if_neg ho] at this
        split at this <;> omega
    · rw [h3 a hb] at hd; omega
  cases op with
  | approve w b q x => rw [(C55_approve h).2.1] at hd; omega
  | transfer w b r x =>
    simp only [step, transfer, bind_ok, pure_ok] at h
    obtain ⟨L, hL, rfl⟩ := h
    obtain ⟨rfl, rfl, hx⟩ := key hL hd
    exact ⟨r, x, Or.inl rfl, hx⟩
  | transferFrom w b src r x =>
    obtain ⟨h1, h2, _⟩ := transferFrom_ok h
    obtain ⟨rfl, rfl, hx⟩ := key h2 hd
    exact ⟨r, x, Or.inr ⟨w, rfl, h1⟩, hx⟩
  | ledger L => exact absurd rfl (hop L)

/-- C87: a successful transfer (own or on behalf) of an amount that fits a balance moves exactly that amount from the
source to the receiver; no other balance and no supply changes. -/
theorem C87_exact_partial {s s' : St} {op : Op} {a : AssetId} {o r : Acct} {x : Nat} (h : step s op = .ok s') (hx : x < U128)
    (hop : op = .transfer o a r x ∨ ∃ w, op = .transferFrom w a o r x) :
    x ≤ s.ledger.bal a o ∧ s'.ledger.iss = s.ledger.iss ∧ (∀ b, b ≠ a → s'.ledger.bal b = s.ledger.bal b) ∧
      ∀ y, s'.ledger.bal a y + (if y = o then x else 0) = s.ledger.bal a y + (if y = r then x else 0) := by
  have hsat : sat x = x := Nat.min_eq_left (by omega)
  rcases hop with rfl | ⟨w, rfl⟩
  · simp only [step, transfer, bind_ok, pure_ok] at h
    obtain ⟨L, hL, rfl⟩ := h
    rw [hsat] at hL
    exact Ledger.transfer_ok hL
  · obtain ⟨_, h2, _⟩ := transferFrom_ok h
    rw [hsat] at h2
    exact Ledger.transfer_ok h2

/-- C87: an amount the chain cannot represent is not refused but cut down: the call reports success although less than
asked for was moved. It takes an account that has the whole range of a balance. -/
theorem C87_saturation_refuted : ∃ (s s' : St) (x : Nat), s.ledger.Sound ∧ step s (.transfer 1 7 2 x) = .ok s' ∧
    s'.ledger.bal 7 2 < x := by
  refine ⟨⟨⟨fun b y => if b = 7 ∧ y = 1 then U128 - 1 else 0, fun b => if b = 7 then U128 - 1 else 0⟩, fun _ _ _ => none⟩,
    _, U128, ?_, rfl, ?_⟩
  · intro b
    refine ⟨?_, ?_⟩
    · by_cases hb : b = 7
      · subst hb
        refine ⟨{1}, fun y hy => ?_, by simp⟩
        simp only [Finset.mem_singleton] at hy
        simp [hy]
      · refine ⟨∅, fun y _ => by simp [hb], by simp [hb]⟩
    · dsimp only; split <;> simp [U128]
  · decide +kernel

end Verif.Erc20
