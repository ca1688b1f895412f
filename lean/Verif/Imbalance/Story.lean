import Verif.Imbalance.Props

/-!
# C261: what the events of a currency tell

`InternalWithdraw` and `InternalDeposit` (assets-ext/src/lib.rs:183-186) for programs that hold imbalances, and `make_free_balance_be`.
-/

namespace Verif.Imbalance

/-- assets-ext/src/lib.rs:183-186. -/
inductive Said where
  /-- `InternalWithdraw` -/
  | withdraw (a who v : Nat)
  /-- `InternalDeposit` -/
  | deposit (a who v : Nat)
deriving DecidableEq

/-- impls.rs:151-177 `withdraw`: the event, for nothing too. -/
def withdrawTold (s : St) (a who v : Nat) (keep : Bool) : List Said :=
  match withdraw s a who v keep with
  | .ok _ => [.withdraw a who v]
  | .error _ => []

/-- impls.rs:181-196 `deposit_into_existing`: no event for nothing. -/
def depositTold (s : St) (a who v : Nat) : List Said :=
  if v = 0 then []
  else match deposit s a who v with
    | .ok _ => [.deposit a who v]
    | .error _ => []

/-- impls.rs:210-235 `make_free_balance_be`. The free balance is the whole balance (no freezer in the runtime). -/
def setFree (s : St) (a who b : Nat) : St × Imb :=
  match (if b ≤ s.bal a who then withdraw s a who (s.bal a who - b) false else .error "greater") with
  | .ok r => r
  | .error _ => if s.bal a who ≤ b then depositCreating s a who (b - s.bal a who) else (s, zero true)

/-- Its events. -/
def setTold (s : St) (a who b : Nat) : List Said :=
  match (if b ≤ s.bal a who then withdraw s a who (s.bal a who - b) false else .error "greater") with
  | .ok _ => [.withdraw a who (s.bal a who - b)]
  | .error _ => if s.bal a who ≤ b then depositTold s a who (b - s.bal a who) else []

/-- What a program does. -/
inductive Act where
  | op (o : Op)
  | setFree (a who b : Nat)

/-- Each act is `step` or `setFree` of the model. -/
def act (s : St) : Act → Except Err St
  | .op o => step s o
  | .setFree a who b => .ok { (setFree s a who b).1 with held := (setFree s a who b).2 :: s.held }

/-- The events of an act. -/
def evs (s : St) : Act → List Said
  | .op (.withdraw a w v k) => withdrawTold s a w v k
  | .op (.deposit a w v) => depositTold s a w v
  | .op (.depositCreating a w v) => depositTold s a w v
  | .op _ => []
  | .setFree a w b => setTold s a w b

/-- What programs are asked to do, as in C217. -/
def FineAct (s : St) : Act → Prop
  | .op o => Fine s o
  | .setFree .. => True

/-- A history and its events, oldest first. -/
inductive Tells (G : St → Act → Prop) (g : St) : St → List Said → Prop where
  | init : Tells G g g []
  | step {s s' : St} {l : List Said} {o : Act} : Tells G g s l → G s o → act s o = .ok s' → Tells G g s' (l ++ evs s o)

/-! ## The reader -/

/-- A reader keeps balances. -/
def hear (f : Nat → Nat → Nat) : Said → Nat → Nat → Nat
  | .withdraw a who v => upd f a (upd (f a) who (f a who - v))
  | .deposit a who v => upd f a (upd (f a) who (f a who + v))

def heard (f : Nat → Nat → Nat) (l : List Said) : Nat → Nat → Nat := l.foldl hear f

/-! ## Proofs -/

theorem upd_self (f : Nat → Nat → Nat) (a w : Nat) : upd f a (upd (f a) w (f a w)) = f := by
  funext b x
  by_cases hb : b = a
  · subst hb
    rw [upd_same]
    by_cases hx : x = w
    · subst hx; rw [upd_same]
    · rw [upd_ne _ _ hx]
  · rw [upd_ne _ _ hb]

theorem withdraw_bal {s : St} {a w v : Nat} {k : Bool} {r : St × Imb} (h : withdraw s a w v k = .ok r) :
    r.1.bal = upd s.bal a (upd (s.bal a) w (s.bal a w - v)) ∧ r.2 = ⟨false, v, a⟩ ∧ v ≤ s.bal a w := by
  unfold withdraw at h
  split at h
  · rename_i hv
    subst hv
    simp only [pure_ok] at h
    subst h
    exact ⟨(upd_self ..).symm, rfl, Nat.zero_le _⟩
  · simp only [bind_ok, ensure_ok, pure_ok] at h
    obtain ⟨_, _, _, h2, rfl⟩ := h
    exact ⟨rfl, rfl, by omega⟩

theorem deposit_bal {s : St} {a w v : Nat} {r : St × Imb} (h : deposit s a w v = .ok r) :
    r.1.bal = upd s.bal a (upd (s.bal a) w (s.bal a w + v)) ∧ r.2 = ⟨true, v, a⟩ := by
  unfold deposit at h
  split at h
  · rename_i hv
    subst hv
    simp only [pure_ok] at h
    subst h
    exact ⟨(upd_self ..).symm, rfl⟩
  · simp only [bind_ok, ensure_ok, pure_ok] at h
    obtain ⟨_, _, _, _, rfl⟩ := h
    exact ⟨rfl, rfl⟩

theorem withdraw_hear {s : St} {a w v : Nat} {k : Bool} {r : St × Imb} (h : withdraw s a w v k = .ok r) :
    heard s.bal (withdrawTold s a w v k) = r.1.bal := by
  unfold withdrawTold
  rw [h]
  exact (withdraw_bal h).1.symm

theorem deposit_hear {s : St} {a w v : Nat} {r : St × Imb} (h : deposit s a w v = .ok r) :
    heard s.bal (depositTold s a w v) = r.1.bal := by
  unfold depositTold
  rw [(deposit_bal h).1]
  split
  · rename_i hv
    subst hv
    exact (upd_self ..).symm
  · rw [h]
    rfl

theorem creating_hear (s : St) (a w v : Nat) : heard s.bal (depositTold s a w v) = (depositCreating s a w v).1.bal := by
  unfold depositCreating
  cases h : deposit s a w v with
  | ok r => exact deposit_hear h
  | error e =>
    unfold depositTold
    split
    · rfl
    · rw [h]
      rfl

theorem setFree_hear (s : St) (a w b : Nat) : heard s.bal (setTold s a w b) = (setFree s a w b).1.bal := by
  unfold setTold setFree
  cases h : (if b ≤ s.bal a w then withdraw s a w (s.bal a w - b) false else .error "greater") with
  | ok r =>
    split at h
    · exact (withdraw_bal h).1.symm
    · cases h
  | error e =>
    dsimp only
    split
    · exact creating_hear ..
    · rfl

theorem act_hear {s s' : St} {o : Act} (h : act s o = .ok s') : heard s.bal (evs s o) = s'.bal := by
  cases o with
  | setFree a w b =>
    cases h
    exact setFree_hear ..
  | op o =>
    cases o with
    | withdraw a w v k =>
      simp only [act, step, bind_ok, pure_ok] at h
      obtain ⟨r, hr, rfl⟩ := h
      exact withdraw_hear hr
    | deposit a w v =>
      simp only [act, step, bind_ok, pure_ok] at h
      obtain ⟨r, hr, rfl⟩ := h
      exact deposit_hear hr
    | depositCreating a w v =>
      cases h
      exact creating_hear ..
    | zero p =>
      cases h
      rfl
    | split i v =>
      simp only [act, step, bind_ok, pure_ok] at h
      obtain ⟨r, _, rfl⟩ := h
      rfl
    | merge i j =>
      simp only [act, step, bind_ok, pure_ok] at h
      obtain ⟨_, _, _, _, _, _, rfl⟩ := h
      rfl
    | offset i j =>
      simp only [act, step, bind_ok, pure_ok] at h
      obtain ⟨_, _, _, _, _, _, rfl⟩ := h
      rfl
    | drop i =>
      simp only [act, step, bind_ok, pure_ok] at h
      obtain ⟨r, _, rfl⟩ := h
      unfold dropImb
      split <;> rfl

theorem setFree_books {s : St} (h : Books s) (a w b : Nat) :
    Books { (setFree s a w b).1 with held := (setFree s a w b).2 :: s.held } := by
  unfold setFree
  cases e : (if b ≤ s.bal a w then withdraw s a w (s.bal a w - b) false else .error "greater") with
  | ok r =>
    split at e
    · exact withdraw_books h e
    · cases e
  | error _ =>
    dsimp only
    split
    · unfold depositCreating
      cases e2 : deposit s a w (b - s.bal a w) with
      | ok r => exact deposit_books h e2
      | error _ => exact zero_books h true
    · exact zero_books h true

theorem tells_books {g s : St} {l : List Said} (h : Tells FineAct g s l) (hg : Books g) : Books s := by
  induction h with
  | init => exact hg
  | @step s s' l o _ hf he ih =>
    cases o with
    | op o => exact step_books ih hf he
    | setFree a w b =>
      cases he
      exact setFree_books ih a w b

/-! ## The property -/

/-- **C261 (balances)** — whoever knows the balances at first and hears every event knows every balance of every asset, whatever programs do
with imbalances. -/
theorem C261_page {G : St → Act → Prop} {g s : St} {l : List Said} (h : Tells G g s l) : heard g.bal l = s.bal := by
  induction h with
  | init => rfl
  | step _ _ he ih =>
    unfold heard at ih ⊢
    rw [List.foldl_append, ih]
    exact act_hear he

/-- **C261 (supply)** — when no imbalance is left, the balances the reader keeps add up to the supply. -/
theorem C261_supply {g s : St} {l : List Said} (h : Tells FineAct g s l) (h0 : g.held = []) (hg : ∀ a, Balanced g a) (hs : s.held = [])
    (a : Nat) : TotalIs (heard g.bal l a) (s.iss a) := by
  have hb := tells_books h ⟨fun a => ⟨g.iss a, hg a, by rw [h0]; rfl⟩, fun x hx => by rw [h0] at hx; cases hx⟩
  obtain ⟨n, h1, h2⟩ := hb.sums a
  rw [hs] at h2
  rw [C261_page h, ← show n = s.iss a from h2]
  exact h1

/-- **C261 (setting a balance)** — a balance that is set is what was asked for and the imbalance is the difference, if the asset exists and
neither the balance nor the supply leaves 128 bits; no other balance changes. -/
theorem C261_set {s : St} {a who b : Nat} (hk : s.known a = true) (hb : b < U128) (hi : s.iss a + (b - s.bal a who) < U128) :
    (setFree s a who b).1.bal = upd s.bal a (upd (s.bal a) who b) ∧
    (setFree s a who b).2 = (if b ≤ s.bal a who then ⟨false, s.bal a who - b, a⟩ else ⟨true, b - s.bal a who, a⟩) := by
  unfold setFree
  by_cases h : b ≤ s.bal a who
  · rw [if_pos h, if_pos h]
    have he : ∃ r, withdraw s a who (s.bal a who - b) false = .ok r := by
      unfold withdraw
      split
      · exact ⟨_, rfl⟩
      · rw [show ensure (s.known a = true) "Unknown" = .ok () from if_pos hk,
          show ensure (s.bal a who - b + (if false = true then 1 else 0) ≤ s.bal a who) "BalanceLow" = .ok () from
            if_pos (by simp only [Bool.false_eq_true, if_false]; omega)]
        exact ⟨_, rfl⟩
    obtain ⟨r, hr⟩ := he
    rw [hr]
    obtain ⟨h1, h2, h3⟩ := withdraw_bal hr
    refine ⟨?_, h2⟩
    dsimp only
    rw [h1, show s.bal a who - (s.bal a who - b) = b by omega]
  · rw [if_neg h, if_neg h]
    dsimp only
    rw [if_pos (by omega)]
    have he : ∃ r, deposit s a who (b - s.bal a who) = .ok r := by
      unfold deposit
      rw [if_neg (by omega), show ensure (s.known a = true) "Unknown" = .ok () from if_pos hk,
        show ensure (s.iss a + (b - s.bal a who) < U128 ∧ s.bal a who + (b - s.bal a who) < U128) "Overflow" = .ok () from
          if_pos ⟨hi, by omega⟩]
      exact ⟨_, rfl⟩
    obtain ⟨r, hr⟩ := he
    obtain ⟨h1, h2⟩ := deposit_bal hr
    unfold depositCreating
    rw [hr]
    refine ⟨?_, h2⟩
    dsimp only
    rw [h1, show s.bal a who + (b - s.bal a who) = b by omega]

/-- **C261 (a balance is set or stays)** — in all other cases too, a balance that is set is what was asked for or what it was, and the
balance and the imbalance change by the same. -/
theorem C261_set_or_stays (s : St) (a who b : Nat) :
    ((setFree s a who b).1.bal = upd s.bal a (upd (s.bal a) who b) ∨
      (setFree s a who b).1.bal = s.bal ∧ (setFree s a who b).2.amount = 0) ∧
    (if (setFree s a who b).2.pos = true then (setFree s a who b).1.bal a who = s.bal a who + (setFree s a who b).2.amount
      else (setFree s a who b).1.bal a who + (setFree s a who b).2.amount = s.bal a who) := by
  unfold setFree
  cases e : (if b ≤ s.bal a who then withdraw s a who (s.bal a who - b) false else .error "greater") with
  | ok r =>
    split at e
    · rename_i h
      obtain ⟨h1, h2, h3⟩ := withdraw_bal e
      dsimp only
      rw [h1, h2, show s.bal a who - (s.bal a who - b) = b by omega]
      refine ⟨.inl rfl, ?_⟩
      rw [upd_same, upd_same]
      simp only [Bool.false_eq_true, if_false]
      omega
    · cases e
  | error _ =>
    dsimp only
    split
    · rename_i h
      unfold depositCreating
      cases e2 : deposit s a who (b - s.bal a who) with
      | ok r =>
        obtain ⟨h1, h2⟩ := deposit_bal e2
        dsimp only
        rw [h1, h2, show s.bal a who + (b - s.bal a who) = b by omega]
        refine ⟨.inl rfl, ?_⟩
        rw [upd_same, upd_same]
        simp only [if_true]
      | error _ => exact ⟨.inr ⟨rfl, rfl⟩, rfl⟩
    · exact ⟨.inr ⟨rfl, rfl⟩, rfl⟩

/-- **C261 (refused)** — what is refused is not told of. -/
theorem C261_refused {s : St} {o : Act} {e : Err} (h : act s o = .error e) : evs s o = [] := by
  cases o with
  | setFree a w b => cases h
  | op o =>
    cases o with
    | withdraw a w v k =>
      change withdrawTold s a w v k = []
      unfold withdrawTold
      cases hw : withdraw s a w v k with
      | ok r => simp [act, step, hw, bind, Except.bind, pure, Except.pure] at h
      | error _ => rfl
    | deposit a w v =>
      change depositTold s a w v = []
      unfold depositTold
      cases hw : deposit s a w v with
      | ok r => simp [act, step, hw, bind, Except.bind, pure, Except.pure] at h
      | error _ => simp
    | depositCreating a w v => cases h
    | _ => rfl

/-- Withdrawing too much is refused. -/
example : ∃ e, act g (.op (.withdraw 2 1 (g.bal 2 1 + 1) false)) = .error e := ⟨_, rfl⟩

/-- **C261 is false** of events that tell of nothing: a balance that is set to what it is is told to be withdrawn from, and so is an account
of an asset that does not exist. -/
theorem C261_nothing_refuted : (∀ (s : St) (a who : Nat), evs s (.setFree a who (s.bal a who)) = [.withdraw a who 0] ∧
      (setFree s a who (s.bal a who)).1.bal = s.bal) ∧
    ∃ (s : St) (a who : Nat), s.known a = false ∧ evs s (.op (.withdraw a who 0 true)) = [.withdraw a who 0] := by
  refine ⟨fun s a who => ?_, g, 3, 1, by decide +kernel, by decide +kernel⟩
  have h : (if s.bal a who ≤ s.bal a who then withdraw s a who (s.bal a who - s.bal a who) false else .error "greater") =
      .ok (s, ⟨false, 0, a⟩) := by
    rw [if_pos (Nat.le_refl _), Nat.sub_self]
    rfl
  constructor
  · show setTold s a who (s.bal a who) = _
    unfold setTold
    rw [h, Nat.sub_self]
  · unfold setFree
    rw [h]

/-! ## Cases -/

/-- The state after an act. -/
def next (s : St) (o : Act) : St := match act s o with
  | .ok s' => s'
  | .error _ => s

theorem Tells.play {G : St → Act → Prop} {g s : St} {l : List Said} (h : Tells G g s l) (o : Act) (hg : G s o)
    (ho : (act s o).isOk = true) : Tells G g (next s o) (l ++ evs s o) := by
  cases e : act s o with
  | ok s' =>
    unfold next
    rw [e]
    exact .step h hg e
  | error _ =>
    rw [e] at ho
    cases ho

def g1 : St := next g (.op (.withdraw 2 1 40 false))
def g2 : St := next g1 (.op (.drop 0))
def g3 : St := next g2 (.setFree 2 1 30)
def g4 : St := next g3 (.op (.drop 0))

/-- Forty are withdrawn and dropped; then the balance is set to thirty, and what is taken by that is dropped. -/
theorem demo_tells : Tells FineAct g g4 [.withdraw 2 1 40, .withdraw 2 1 30] := by
  have h1 : Tells FineAct g g1 [.withdraw 2 1 40] := Tells.play .init _ trivial (by decide +kernel)
  have h2 : Tells FineAct g g2 [.withdraw 2 1 40] := by
    refine Tells.play h1 (.op (.drop 0)) ?_ (by decide +kernel)
    intro x l h
    rw [show pull g1.held 0 = some (⟨false, 40, 2⟩, []) by decide +kernel] at h
    cases h
    decide +kernel
  have h3 : Tells FineAct g g3 [.withdraw 2 1 40, .withdraw 2 1 30] := Tells.play h2 (.setFree 2 1 30) trivial (by decide +kernel)
  refine Tells.play h3 (.op (.drop 0)) ?_ (by decide +kernel)
  intro x l h
  rw [show pull g3.held 0 = some (⟨false, 30, 2⟩, []) by decide +kernel] at h
  cases h
  decide +kernel

example : heard g.bal [.withdraw 2 1 40, .withdraw 2 1 30] 2 1 = 30 ∧ g4.bal 2 1 = 30 ∧ g4.iss 2 = 30 := by decide +kernel
example := C261_page demo_tells
example := C261_supply demo_tells rfl g_balanced (by decide +kernel) 2
example := C261_set (s := g) (a := 2) (who := 1) (b := 130) (by decide +kernel) (by decide +kernel) (by decide +kernel)
/-- An asset that does not exist. -/
example : (setFree g 3 1 5).2 = zero true ∧ (setFree g 3 1 5).1.bal 3 1 = 0 := by decide +kernel

end Verif.Imbalance
