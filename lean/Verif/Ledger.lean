import Verif.Base

/-!
# Dispatch results and the multi-currency ledger

`Except Err α` is a dispatch result. `pallet-assets` and `pallet-balances` are dependencies whose
source is not part of `/repo`; they are represented by `Ledger`: balances and issuance per
asset, with transfer, mint and burn that fail on insufficient balance or on `u128` overflow of
the issuance. Existential deposits, frozen accounts and reference counting are not modelled.
-/

namespace Verif

/-- Name of a dispatch error. -/
abbrev Err := String

/-- `ensure!(p, e)`. -/
def ensure (p : Prop) [Decidable p] (e : Err) : Except Err Unit :=
  if p then .ok () else .error e

/-- `opt.ok_or(e)`. -/
def okOr {α : Type} (o : Option α) (e : Err) : Except Err α :=
  match o with
  | some a => .ok a
  | none => .error e

/-- The result is this error. -/
def errIs {α : Type} (x : Except Err α) (e : Err) : Bool :=
  match x with
  | .error e' => e' == e
  | .ok _ => false

theorem ensure_pos {p : Prop} [Decidable p] {e : Err} (h : p) : ensure p e = .ok () := by
  simp [ensure, h]

@[simp] theorem ensure_ok {p : Prop} [Decidable p] {e : Err} {u : Unit} :
    ensure p e = .ok u ↔ p := by
  unfold ensure; split <;> simp_all

@[simp] theorem okOr_ok {α : Type} {o : Option α} {e : Err} {a : α} :
    okOr o e = .ok a ↔ o = some a := by
  unfold okOr; split <;> simp_all

@[simp] theorem bind_ok {α β : Type} {x : Except Err α} {f : α → Except Err β} {b : β} :
    (x >>= f) = .ok b ↔ ∃ a, x = .ok a ∧ f a = .ok b := by
  cases x with
  | error e => simp [bind, Except.bind]
  | ok a => simp [bind, Except.bind]

@[simp] theorem pure_ok {α : Type} {a b : α} :
    (pure a : Except Err α) = .ok b ↔ a = b := by
  simp [pure, Except.pure]

theorem ensure_err {p : Prop} [Decidable p] {e e' : Err} : ensure p e' = .error e ↔ ¬ p ∧ e' = e := by
  unfold ensure; split <;> simp_all

theorem okOr_err {α : Type} {o : Option α} {e e' : Err} : okOr o e' = .error e ↔ o = none ∧ e' = e := by
  unfold okOr; split <;> simp_all

theorem bind_err {α β : Type} {x : Except Err α} {f : α → Except Err β} {e : Err} :
    (x >>= f) = .error e ↔ x = .error e ∨ ∃ a, x = .ok a ∧ f a = .error e := by
  cases x with
  | error e => simp [bind, Except.bind]
  | ok a => simp [bind, Except.bind]

theorem pure_err {α : Type} {a : α} {e : Err} : (pure a : Except Err α) ≠ .error e := by
  simp [pure, Except.pure]

/-- A computation known to succeed equals the value it produces. -/
theorem ok_getD {α : Type} {x : Except Err α} {d : α} (h : x.isOk = true) :
    x = .ok (x.toOption.getD d) := by
  cases x with
  | error e => cases h
  | ok s => rfl

/-- Asset ids are `u32` (/repo/primitives/src/lib.rs `AssetId`). -/
abbrev AssetId := Fin 4294967296

/-- Account ids are 20-byte addresses, read as numbers. -/
abbrev Acct := Nat

/-- Balances and issuance of every asset. -/
structure Ledger where
  bal : AssetId → Acct → Nat
  iss : AssetId → Nat

namespace Ledger

/-- No balances at all. -/
def empty : Ledger := ⟨fun _ _ => 0, fun _ => 0⟩

/-- Move `x` from key `s` to key `d`. -/
def move (f : Acct → Nat) (s d : Acct) (x : Nat) : Acct → Nat :=
  let g := upd f s (f s - x)
  upd g d (g d + x)

/-- `fungibles::Mutate::transfer` of pallet-assets / pallet-balances (dependency): fails unless the
sender owns the amount. -/
def transfer (L : Ledger) (a : AssetId) (s d : Acct) (x : Nat) : Except Err Ledger :=
  if x ≤ L.bal a s then .ok { L with bal := upd L.bal a (move (L.bal a) s d x) }
  else .error "BalanceLow"

/-- `fungibles::Mutate::mint_into` (dependency): fails when the issuance leaves `u128`. -/
def mint (L : Ledger) (a : AssetId) (d : Acct) (x : Nat) : Except Err Ledger :=
  if L.iss a + x < U128 then
    .ok { bal := upd L.bal a (upd (L.bal a) d (L.bal a d + x)), iss := upd L.iss a (L.iss a + x) }
  else .error "Overflow"

/-- `fungibles::Mutate::burn_from` with `Precision::Exact` (dependency). -/
def burn (L : Ledger) (a : AssetId) (s : Acct) (x : Nat) : Except Err Ledger :=
  if x ≤ L.bal a s then
    .ok { bal := upd L.bal a (upd (L.bal a) s (L.bal a s - x)), iss := upd L.iss a (L.iss a - x) }
  else .error "BalanceLow"

/-- Every asset's balances add up to its issuance, which fits `u128`. -/
def Sound (L : Ledger) : Prop := ∀ a, TotalIs (L.bal a) (L.iss a) ∧ L.iss a < U128

theorem sound_empty : Sound empty := fun _ => ⟨TotalIs.zero, by simp [empty, U128]⟩

theorem move_spec {f : Acct → Nat} {s d : Acct} {x : Nat} (h : x ≤ f s) (y : Acct) :
    move f s d x y + (if y = s then x else 0) = f y + (if y = d then x else 0) := by
  unfold move upd
  by_cases h1 : y = s <;> by_cases h2 : y = d <;> by_cases h3 : d = s <;>
    simp_all

theorem move_total {f : Acct → Nat} {s d : Acct} {x n : Nat} (h : x ≤ f s) (ht : TotalIs f n) :
    TotalIs (move f s d x) n := by
  have h1 := ht.upd_sub s x h
  have h2 := h1.upd_add d x
  have hle := ht.le s
  have e : n - x + x = n := by omega
  rw [e] at h2
  exact h2

/-- Everything a successful transfer tells us. -/
theorem transfer_ok {L L' : Ledger} {a : AssetId} {s d : Acct} {x : Nat}
    (h : L.transfer a s d x = .ok L') :
    x ≤ L.bal a s ∧ L'.iss = L.iss ∧ (∀ b, b ≠ a → L'.bal b = L.bal b) ∧
    (∀ y, L'.bal a y + (if y = s then x else 0) = L.bal a y + (if y = d then x else 0)) := by
  unfold transfer at h
  split at h
  · rename_i hx
    cases h
    refine ⟨hx, rfl, ?_, ?_⟩
    · intro b hb; exact upd_ne _ _ hb
    · intro y; simp only [upd_same]; exact move_spec hx y
  · cases h

theorem transfer_total {L L' : Ledger} {a : AssetId} {s d : Acct} {x : Nat}
    (h : L.transfer a s d x = .ok L') (b : AssetId) {n : Nat} (ht : TotalIs (L.bal b) n) :
    TotalIs (L'.bal b) n := by
  unfold transfer at h
  split at h
  · rename_i hx
    cases h
    by_cases hb : b = a
    · subst hb; simp only [upd_same]; exact move_total hx ht
    · simp only [upd_ne _ _ hb]; exact ht
  · cases h

theorem transfer_sound {L L' : Ledger} {a : AssetId} {s d : Acct} {x : Nat}
    (h : L.transfer a s d x = .ok L') (hs : L.Sound) : L'.Sound := by
  intro b
  have := (transfer_ok h).2.1
  rw [this]
  exact ⟨transfer_total h b (hs b).1, (hs b).2⟩

/-- Everything a successful mint tells us. -/
theorem mint_ok {L L' : Ledger} {a : AssetId} {d : Acct} {x : Nat}
    (h : L.mint a d x = .ok L') :
    L.iss a + x < U128 ∧ L'.iss a = L.iss a + x ∧ (∀ b, b ≠ a → L'.iss b = L.iss b) ∧
    (∀ b, b ≠ a → L'.bal b = L.bal b) ∧
    (∀ y, L'.bal a y = L.bal a y + (if y = d then x else 0)) := by
  unfold mint at h
  split at h
  · rename_i hx
    cases h
    refine ⟨hx, by simp, fun b hb => upd_ne _ _ hb, fun b hb => upd_ne _ _ hb, ?_⟩
    intro y
    simp only [upd_same, upd_apply]
    split <;> simp_all
  · cases h

theorem mint_sound {L L' : Ledger} {a : AssetId} {d : Acct} {x : Nat}
    (h : L.mint a d x = .ok L') (hs : L.Sound) : L'.Sound := by
  unfold mint at h
  split at h
  · rename_i hx
    cases h
    intro b
    by_cases hb : b = a
    · subst hb; simp only [upd_same]; exact ⟨(hs b).1.upd_add d x, hx⟩
    · simp only [upd_ne _ _ hb]; exact hs b
  · cases h

/-- Everything a successful burn tells us. -/
theorem burn_ok {L L' : Ledger} {a : AssetId} {s : Acct} {x : Nat}
    (h : L.burn a s x = .ok L') :
    x ≤ L.bal a s ∧ L'.iss a = L.iss a - x ∧ (∀ b, b ≠ a → L'.iss b = L.iss b) ∧
    (∀ b, b ≠ a → L'.bal b = L.bal b) ∧
    (∀ y, L'.bal a y + (if y = s then x else 0) = L.bal a y) := by
  unfold burn at h
  split at h
  · rename_i hx
    cases h
    refine ⟨hx, by simp, fun b hb => upd_ne _ _ hb, fun b hb => upd_ne _ _ hb, ?_⟩
    intro y
    simp only [upd_same, upd_apply]
    split <;> simp_all
  · cases h

theorem burn_sound {L L' : Ledger} {a : AssetId} {s : Acct} {x : Nat}
    (h : L.burn a s x = .ok L') (hs : L.Sound) : L'.Sound := by
  unfold burn at h
  split at h
  · rename_i hx
    cases h
    intro b
    by_cases hb : b = a
    · subst hb; simp only [upd_same]
      exact ⟨(hs b).1.upd_sub s x hx, by have := (hs b).2; omega⟩
    · simp only [upd_ne _ _ hb]; exact hs b
  · cases h

theorem transfer_mono {L L' : Ledger} {a : AssetId} {s d : Acct} {x : Nat}
    (h : L.transfer a s d x = .ok L') (b : AssetId) (y : Acct) (hy : b = a → y ≠ s) :
    L.bal b y ≤ L'.bal b y := by
  obtain ⟨_, _, h2, h3⟩ := transfer_ok h
  by_cases hb : b = a
  · subst hb
    have := h3 y
    rw [if_neg (hy rfl)] at this
    omega
  · rw [h2 b hb]

theorem mint_mono {L L' : Ledger} {a : AssetId} {d : Acct} {x : Nat}
    (h : L.mint a d x = .ok L') (b : AssetId) (y : Acct) : L.bal b y ≤ L'.bal b y := by
  obtain ⟨_, _, _, h2, h3⟩ := mint_ok h
  by_cases hb : b = a
  · subst hb; rw [h3 y]; omega
  · rw [h2 b hb]

theorem burn_mono {L L' : Ledger} {a : AssetId} {s : Acct} {x : Nat}
    (h : L.burn a s x = .ok L') (b : AssetId) (y : Acct) (hy : b = a → y ≠ s) :
    L.bal b y ≤ L'.bal b y := by
  obtain ⟨_, _, _, h2, h3⟩ := burn_ok h
  by_cases hb : b = a
  · subst hb
    have := h3 y
    rw [if_neg (hy rfl)] at this
    omega
  · rw [h2 b hb]

theorem Sound.bal_lt {L : Ledger} (h : L.Sound) (a : AssetId) (x : Acct) : L.bal a x < U128 :=
  lt_of_le_of_lt ((h a).1.le x) (h a).2

end Ledger
end Verif
