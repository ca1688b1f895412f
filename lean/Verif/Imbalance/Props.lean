import Verif.Imbalance.Model

/-!
# What is proved of imbalances
-/

namespace Verif.Imbalance

/-! ## Specification -/

/-- The supply of an asset is the sum of its balances. -/
def Balanced (s : St) (a : Nat) : Prop := TotalIs (s.bal a) (s.iss a)

/-- What is held of an asset in imbalances of a kind. -/
def out (p : Bool) (a : Nat) (l : List Imb) : Nat := (l.map (fun x => if x.pos = p ∧ x.asset = a then x.amount else 0)).sum

/-- What a program may do: put together imbalances of the same asset, or add nothing; keep within 128 bits; and not drop a negative
imbalance when the supply is less. -/
def Fine (s : St) : Op → Prop
  | .merge i j => ∀ x l y l', pull s.held i = some (x, l) → pull l j = some (y, l') →
      (y.asset = x.asset ∨ y.amount = 0) ∧ x.amount + y.amount < U128
  | .offset i j => ∀ x l y l', pull s.held i = some (x, l) → pull l j = some (y, l') → y.asset = x.asset ∨ y.amount = 0
  | .drop i => ∀ x l, pull s.held i = some (x, l) →
      if x.pos = true then s.iss x.asset + x.amount < U128 else x.amount ≤ s.iss x.asset
  | _ => True

/-- All operations of a program, where they are done, are fine. -/
def AllFine (s : St) : List Op → Prop
  | [] => True
  | op :: ops => Fine s op ∧ ∀ s', step s op = .ok s' → AllFine s' ops

/-! ## Sums -/

theorem out_cons (p : Bool) (a : Nat) (x : Imb) (l : List Imb) :
    out p a (x :: l) = (if x.pos = p ∧ x.asset = a then x.amount else 0) + out p a l := by
  unfold out
  rw [List.map_cons, List.sum_cons]

/-- What one imbalance adds. -/
def w (p : Bool) (a : Nat) (x : Imb) : Nat := if x.pos = p ∧ x.asset = a then x.amount else 0

theorem out_w (p : Bool) (a : Nat) (x : Imb) (l : List Imb) : out p a (x :: l) = w p a x + out p a l := out_cons ..

theorem merge_w (x y : Imb) (hp : x.pos = y.pos) (h1 : y.asset = x.asset ∨ y.amount = 0) (h2 : x.amount + y.amount < U128)
    (p : Bool) (a : Nat) : w p a (merge x y) = w p a x + w p a y := by
  unfold w merge
  dsimp only
  rw [Nat.min_eq_left (by omega : x.amount + y.amount ≤ U128 - 1), ← hp]
  rcases h1 with h1 | h1
  · rw [h1]
    split <;> omega
  · rw [h1]
    split <;> split <;> omega

theorem offset_w (x y : Imb) (hp : x.pos ≠ y.pos) (h1 : y.asset = x.asset ∨ y.amount = 0) (a : Nat) :
    w true a x + w true a y + w false a (offset x y) = w true a (offset x y) + (w false a x + w false a y) := by
  obtain ⟨xp, xa, xs⟩ := x
  obtain ⟨yp, ya, ys⟩ := y
  dsimp only at hp h1
  rcases h1 with rfl | rfl
  · unfold w offset
    by_cases hle : ya ≤ xa <;> by_cases h : ys = a <;> cases xp <;> cases yp <;> first
      | exact absurd rfl hp
      | (simp [h, hle]; done)
      | (simp [h, hle]; omega)
  · unfold w offset
    by_cases h : xs = a <;> by_cases h' : ys = a <;> cases xp <;> cases yp <;> first
      | exact absurd rfl hp
      | simp [h, h']

theorem pull_out (p : Bool) (a : Nat) : ∀ {l : List Imb} {i : Nat} {x : Imb} {r : List Imb}, pull l i = some (x, r) →
    out p a l = out p a (x :: r)
  | [], i, _, _, h => by
    unfold pull at h
    cases h
  | y :: l, 0, x, r, h => by
    unfold pull at h
    cases h
    rfl
  | y :: l, i + 1, x, r, h => by
    unfold pull at h
    split at h
    · cases h
    · rename_i z t hz
      cases h
      rw [out_cons, pull_out p a hz, out_cons, out_cons, out_cons]
      omega

/-- The books: balances and what was taken are the supply and what was given. -/
structure Books (s : St) : Prop where
  sums : ∀ a, ∃ n, TotalIs (s.bal a) n ∧ n + out false a s.held = s.iss a + out true a s.held
  known : ∀ x ∈ s.held, x.amount = 0 ∨ s.known x.asset = true

theorem pull_mem : ∀ {l : List Imb} {i : Nat} {x : Imb} {r : List Imb}, pull l i = some (x, r) → ∀ y, y ∈ l ↔ y = x ∨ y ∈ r
  | [], i, _, _, h, _ => by
    unfold pull at h
    cases h
  | y :: l, 0, x, r, h, z => by
    unfold pull at h
    cases h
    exact List.mem_cons
  | y :: l, i + 1, x, r, h, z => by
    unfold pull at h
    split at h
    · cases h
    · rename_i w t hw
      cases h
      rw [List.mem_cons, pull_mem hw, List.mem_cons]
      exact or_left_comm

/-- Another list of imbalances with the same sums, up to the same amount on both sides. -/
theorem Books.swap {s : St} (h : Books s) (l : List Imb)
    (hs : ∀ a, out true a s.held + out false a l = out true a l + out false a s.held)
    (hk : ∀ x ∈ l, x.amount = 0 ∨ s.known x.asset = true) : Books { s with held := l } where
  sums := by
    intro a
    obtain ⟨n, h1, h2⟩ := h.sums a
    refine ⟨n, h1, ?_⟩
    have := hs a
    show n + out false a l = s.iss a + out true a l
    omega
  known := hk

theorem withdraw_books {s : St} (h : Books s) {a w v : Nat} {k : Bool} {r : St × Imb} (hr : withdraw s a w v k = .ok r) :
    Books { r.1 with held := r.2 :: s.held } := by
  unfold withdraw at hr
  split at hr
  · simp only [pure_ok] at hr
    subst hr
    refine h.swap _ (fun b => ?_) (fun x hx => ?_)
    · rw [out_cons, out_cons]
      simp only [ite_self]
      omega
    · rw [List.mem_cons] at hx
      rcases hx with rfl | hx
      · exact .inl rfl
      · exact h.known x hx
  simp only [bind_ok, ensure_ok, pure_ok] at hr
  obtain ⟨_, h1, _, h2, rfl⟩ := hr
  have hv : v ≤ s.bal a w := by omega
  refine ⟨fun b => ?_, fun x hx => ?_⟩
  · obtain ⟨n, h3, h4⟩ := h.sums b
    show ∃ n, TotalIs (upd s.bal a (upd (s.bal a) w (s.bal a w - v)) b) n ∧ n + out false b (⟨false, v, a⟩ :: s.held) =
      s.iss b + out true b (⟨false, v, a⟩ :: s.held)
    rw [out_cons, out_cons]
    by_cases hb : b = a
    · subst hb
      rw [upd_same _ _ _]
      refine ⟨n - v, h3.upd_sub w v hv, ?_⟩
      have := h3.le w
      simp only [and_self, if_true, Bool.false_eq_true, false_and, if_false]
      omega
    · rw [upd_ne _ _ hb]
      refine ⟨n, h3, ?_⟩
      simp only [Ne.symm hb, and_false, if_false]
      omega
  · rw [List.mem_cons] at hx
    rcases hx with rfl | hx
    · exact .inr h1
    · exact h.known x hx

theorem deposit_books {s : St} (h : Books s) {a w v : Nat} {r : St × Imb} (hr : deposit s a w v = .ok r) :
    Books { r.1 with held := r.2 :: s.held } := by
  unfold deposit at hr
  split at hr
  · simp only [pure_ok] at hr
    subst hr
    refine h.swap _ (fun b => ?_) (fun x hx => ?_)
    · rw [out_cons, out_cons]
      simp only [ite_self]
      omega
    · rw [List.mem_cons] at hx
      rcases hx with rfl | hx
      · exact .inl rfl
      · exact h.known x hx
  · simp only [bind_ok, ensure_ok, pure_ok] at hr
    obtain ⟨_, h1, _, h2, rfl⟩ := hr
    refine ⟨fun b => ?_, fun x hx => ?_⟩
    · obtain ⟨n, h3, h4⟩ := h.sums b
      show ∃ n, TotalIs (upd s.bal a (upd (s.bal a) w (s.bal a w + v)) b) n ∧ n + out false b (⟨true, v, a⟩ :: s.held) =
        s.iss b + out true b (⟨true, v, a⟩ :: s.held)
      rw [out_cons, out_cons]
      by_cases hb : b = a
      · subst hb
        rw [upd_same _ _ _]
        refine ⟨n + v, h3.upd_add w v, ?_⟩
        simp only [and_self, if_true, Bool.true_eq_false, false_and, if_false]
        omega
      · rw [upd_ne _ _ hb]
        refine ⟨n, h3, ?_⟩
        simp only [Ne.symm hb, and_false, if_false]
        omega
    · rw [List.mem_cons] at hx
      rcases hx with rfl | hx
      · exact .inr h1
      · exact h.known x hx

theorem zero_books {s : St} (h : Books s) (p : Bool) : Books { s with held := zero p :: s.held } := by
  refine h.swap _ (fun b => ?_) (fun x hx => ?_)
  · rw [out_cons, out_cons]
    show _ + ((if p = false ∧ 0 = b then 0 else 0) + _) = (if p = true ∧ 0 = b then 0 else 0) + _ + _
    split <;> split <;> omega
  · rw [List.mem_cons] at hx
    rcases hx with rfl | hx
    · exact .inl rfl
    · exact h.known x hx

theorem step_books {s s' : St} {op : Op} (h : Books s) (hf : Fine s op) (hs : step s op = .ok s') : Books s' := by
  cases op with
  | withdraw a w v k =>
    simp only [step, bind_ok, pure_ok] at hs
    obtain ⟨r, hr, rfl⟩ := hs
    exact withdraw_books h hr
  | deposit a w v =>
    simp only [step, bind_ok, pure_ok] at hs
    obtain ⟨r, hr, rfl⟩ := hs
    exact deposit_books h hr
  | depositCreating a w v =>
    simp only [step, Except.ok.injEq] at hs
    subst hs
    unfold depositCreating
    split
    · rename_i r hr
      exact deposit_books h hr
    · exact zero_books h true
  | zero p =>
    simp only [step, Except.ok.injEq] at hs
    subst hs
    exact zero_books h p
  | split i v =>
    simp only [step, bind_ok, okOr_ok, pure_ok] at hs
    obtain ⟨⟨x, l⟩, hx, rfl⟩ := hs
    refine h.swap _ (fun b => ?_) (fun y hy => ?_)
    · rw [pull_out true b hx, pull_out false b hx]
      simp only [out_cons, split]
      split <;> split <;> omega
    · have hk := h.known x ((pull_mem hx x).2 (.inl rfl))
      simp only [split, List.mem_cons] at hy
      rcases hy with rfl | rfl | hy
      · rcases hk with hk | hk
        · exact .inl (by show min x.amount v = 0; omega)
        · exact .inr hk
      · rcases hk with hk | hk
        · exact .inl (by show x.amount - min x.amount v = 0; omega)
        · exact .inr hk
      · exact h.known y ((pull_mem hx y).2 (.inr hy))
  | merge i j =>
    simp only [step, bind_ok, okOr_ok, ensure_ok, pure_ok] at hs
    obtain ⟨⟨x, l⟩, hx, ⟨y, t⟩, hy, _, hp, rfl⟩ := hs
    obtain ⟨h1, h2⟩ := hf x l y t hx hy
    have hp : x.pos = y.pos := hp
    refine h.swap _ (fun b => ?_) (fun z hz => ?_)
    · have e : ∀ p, out p b s.held = w p b x + (w p b y + out p b t) := fun p => by
        rw [pull_out p b hx, out_w, show out p b l = _ from pull_out p b hy, out_w]
      rw [e, e]
      show _ + out false b (merge x y :: t) = out true b (merge x y :: t) + _
      rw [out_w, out_w, merge_w x y hp h1 h2, merge_w x y hp h1 h2]
      omega
    · have hk := h.known x ((pull_mem hx x).2 (.inl rfl))
      have hl := h.known y ((pull_mem hx y).2 (.inr ((pull_mem hy y).2 (.inl rfl))))
      rw [List.mem_cons] at hz
      rcases hz with rfl | hz
      · rcases hk with hk | hk
        · rcases h1 with h1 | h1
          · rcases hl with hl | hl
            · exact .inl (by show min (x.amount + y.amount) (U128 - 1) = 0; rw [hk, hl]; rfl)
            · exact .inr (by rw [h1] at hl; exact hl)
          · exact .inl (by show min (x.amount + y.amount) (U128 - 1) = 0; rw [hk, h1]; rfl)
        · exact .inr hk
      · exact h.known z ((pull_mem hx z).2 (.inr ((pull_mem hy z).2 (.inr hz))))
  | offset i j =>
    simp only [step, bind_ok, okOr_ok, ensure_ok, pure_ok] at hs
    obtain ⟨⟨x, l⟩, hx, ⟨y, t⟩, hy, _, hp, rfl⟩ := hs
    have h1 := hf x l y t hx hy
    have hp : x.pos ≠ y.pos := hp
    refine h.swap _ (fun b => ?_) (fun z hz => ?_)
    · have e : ∀ p, out p b s.held = w p b x + (w p b y + out p b t) := fun p => by
        rw [pull_out p b hx, out_w, show out p b l = _ from pull_out p b hy, out_w]
      rw [e, e]
      show _ + out false b (offset x y :: t) = out true b (offset x y :: t) + _
      rw [out_w, out_w]
      have := offset_w x y hp h1 b
      omega
    · have hk := h.known x ((pull_mem hx x).2 (.inl rfl))
      have hl := h.known y ((pull_mem hx y).2 (.inr ((pull_mem hy y).2 (.inl rfl))))
      rw [List.mem_cons] at hz
      rcases hz with rfl | hz
      · have hk2 : s.known x.asset = true ∨ (x.amount = 0 ∧ y.amount = 0) := by
          rcases hk with hk | hk
          · rcases hl with hl | hl
            · exact .inr ⟨hk, hl⟩
            · rcases h1 with h1 | h1
              · exact .inl (by rw [← h1]; exact hl)
              · exact .inr ⟨hk, h1⟩
          · exact .inl hk
        unfold offset
        split
        · rcases hk2 with h2 | h2
          · exact .inr h2
          · exact .inl (by show x.amount - y.amount = 0; omega)
        · rcases hk2 with h2 | h2
          · exact .inr h2
          · exact .inl (by show y.amount - x.amount = 0; omega)
      · exact h.known z ((pull_mem hx z).2 (.inr ((pull_mem hy z).2 (.inr hz))))
  | drop i =>
    simp only [step, bind_ok, okOr_ok, pure_ok] at hs
    obtain ⟨⟨x, l⟩, hx, rfl⟩ := hs
    have h1 := hf x l hx
    have hk := h.known x ((pull_mem hx x).2 (.inl rfl))
    have hl : ∀ y ∈ l, y.amount = 0 ∨ s.known y.asset = true := fun y hy => h.known y ((pull_mem hx y).2 (.inr hy))
    show Books (dropImb { s with held := l } x)
    unfold dropImb
    split
    · refine ⟨fun b => ?_, hl⟩
      obtain ⟨n, h3, h4⟩ := h.sums b
      rw [pull_out true b hx, pull_out false b hx, out_cons, out_cons] at h4
      refine ⟨n, h3, ?_⟩
      show n + out false b l = upd s.iss x.asset _ b + out true b l
      by_cases hb : b = x.asset
      · subst hb
        rw [upd_same _ _ _]
        cases hp : x.pos with
        | true =>
          rw [hp, if_pos rfl] at h1
          rw [hp] at h4
          simp only [Bool.true_eq_false, and_true, if_true, if_false] at h4 ⊢
          rw [Nat.min_eq_left (by show s.iss x.asset + x.amount ≤ U128 - 1; omega)]
          show _ = s.iss x.asset + x.amount + _
          omega
        | false =>
          rw [hp, if_neg (by decide)] at h1
          rw [hp] at h4
          simp only [Bool.false_eq_true, and_true, if_true, if_false] at h4 ⊢
          show _ = s.iss x.asset - x.amount + _
          omega
      · rw [upd_ne _ _ hb]
        simp only [Ne.symm hb, and_false, if_false] at h4
        show _ = s.iss b + _
        omega
    · rename_i hn
      rcases hk with hk | hk
      · exact h.swap l (fun b => by
          rw [pull_out true b hx, pull_out false b hx, out_cons, out_cons, hk]
          simp only [ite_self]
          omega) hl
      · exact absurd hk hn

theorem run_books : ∀ (ops : List Op) {s s' : St}, Books s → AllFine s ops → run s ops = .ok s' → Books s'
  | [], _, _, h, _, e => by cases e; exact h
  | op :: ops, s, s', h, hf, e => by
    unfold run at e
    simp only [bind_ok] at e
    obtain ⟨s1, h1, h2⟩ := e
    exact run_books ops (step_books h hf.1 h1) (hf.2 s1 h1) h2

/-! ## C217: imbalances keep supplies and balances together -/

/-- However a program makes, splits, merges, offsets and drops imbalances, once it holds none the supply of each asset is again the sum
of its balances; and until then they differ by what it holds. -/
theorem C217_supply_partial {s s' : St} (ops : List Op) (h : ∀ a, Balanced s a) (h0 : s.held = []) (hf : AllFine s ops)
    (hr : run s ops = .ok s') :
    (s'.held = [] → ∀ a, Balanced s' a) ∧
    ∀ a n, TotalIs (s'.bal a) n → n + out false a s'.held = s'.iss a + out true a s'.held := by
  have hb : Books s := ⟨fun a => ⟨s.iss a, h a, by rw [h0]; rfl⟩, fun x hx => by rw [h0] at hx; cases hx⟩
  have hb' := run_books ops hb hf hr
  refine ⟨fun he a => ?_, fun a n hn => ?_⟩
  · obtain ⟨n, h1, h2⟩ := hb'.sums a
    rw [he] at h2
    have : n = s'.iss a := h2
    unfold Balanced
    rw [← this]
    exact h1
  · obtain ⟨m, h1, h2⟩ := hb'.sums a
    rw [hn.unique h1]
    exact h2

/-- What operations on two imbalances give: amounts add up, of the asset of the first. -/
theorem C217_algebra (x y : Imb) (v : Nat) :
    ((split x v).1.amount + (split x v).2.amount = x.amount ∧ (split x v).1.amount ≤ v ∧
      (v ≤ x.amount → (split x v).1.amount = v) ∧
      (split x v).1.asset = x.asset ∧ (split x v).2.asset = x.asset ∧ (split x v).1.pos = x.pos ∧ (split x v).2.pos = x.pos) ∧
    (x.amount + y.amount < U128 → (merge x y).amount = x.amount + y.amount ∧ (merge x y).asset = x.asset ∧ (merge x y).pos = x.pos) ∧
    ((offset x y).asset = x.asset ∧
      if (offset x y).pos = x.pos then (offset x y).amount + y.amount = x.amount else x.amount + (offset x y).amount = y.amount) := by
  refine ⟨⟨?_, ?_, ?_, rfl, rfl, rfl, rfl⟩, fun h => ⟨?_, rfl, rfl⟩, ?_, ?_⟩
  · show min x.amount v + (x.amount - min x.amount v) = _
    omega
  · show min x.amount v ≤ v
    omega
  · show _ → min x.amount v = v
    omega
  · exact Nat.min_eq_left (by omega)
  · unfold offset
    split <;> rfl
  · unfold offset
    split
    · rw [if_pos rfl]
      show x.amount - y.amount + y.amount = x.amount
      omega
    · rw [if_neg (by show ¬ (!x.pos) = x.pos; cases x.pos <;> decide)]
      show x.amount + (y.amount - x.amount) = y.amount
      omega

/-- One asset, number 2, with 100 of it held by the account 1. -/
def g : St where
  bal := upd (fun _ _ => 0) 2 (upd (fun _ => 0) 1 100)
  iss := upd (fun _ => 0) 2 100
  known := fun a => decide (a = 2)
  held := []

theorem g_balanced : ∀ a, Balanced g a := by
  intro a
  unfold Balanced g
  by_cases h : a = 2
  · subst h
    dsimp only
    rw [upd_same _ _ _, upd_same _ _ _]
    have := TotalIs.upd_add (TotalIs.zero (α := Nat)) 1 100
    exact this
  · dsimp only
    rw [upd_ne _ _ h, upd_ne _ _ h]
    exact TotalIs.zero

/-- An imbalance that is merged into an empty one (`zero().merge(x)`, the usual way to add up imbalances) loses its asset: the supply
is then never squared up. -/
theorem C217_zero_refuted : ∃ s', run g [.withdraw 2 1 40 false, .zero false, .merge 0 0, .drop 0] = .ok s' ∧ s'.held = [] ∧
    s'.bal 2 1 = 60 ∧ s'.iss 2 = 100 ∧ ¬ Balanced s' 2 := by
  have h : (run g [.withdraw 2 1 40 false, .zero false, .merge 0 0, .drop 0]).isOk = true := by decide +kernel
  have h2 : (run g [.withdraw 2 1 40 false, .zero false, .merge 0 0, .drop 0]).toOption.map
    (fun s => (s.held, s.bal 2 1, s.iss 2)) = some ([], 60, 100) := by decide +kernel
  cases hr : run g [.withdraw 2 1 40 false, .zero false, .merge 0 0, .drop 0] with
  | error e => rw [hr] at h; cases h
  | ok s' =>
    rw [hr] at h2
    have h2 := Option.some.inj h2
    simp only [Prod.mk.injEq] at h2
    refine ⟨s', rfl, h2.1, h2.2.1, h2.2.2, fun hb => ?_⟩
    have e : s'.bal 2 = upd (fun _ => 0) 1 60 := by
      have : run g [.withdraw 2 1 40 false, .zero false, .merge 0 0, .drop 0] = .ok s' := hr
      have e2 : s' = { g with bal := upd g.bal 2 (upd (g.bal 2) 1 60) } := by
        have : run g [.withdraw 2 1 40 false, .zero false, .merge 0 0, .drop 0] =
          .ok { g with bal := upd g.bal 2 (upd (g.bal 2) 1 60) } := rfl
        rw [hr] at this
        injection this
      rw [e2]
      show upd g.bal 2 (upd (g.bal 2) 1 60) 2 = _
      rw [upd_same _ _ _]
      funext a
      unfold g
      dsimp only
      rw [upd_same _ _ _]
      simp only [upd_apply]
      split <;> rfl
    unfold Balanced at hb
    rw [e, h2.2.2] at hb
    have := (TotalIs.upd_add (TotalIs.zero (α := Nat)) 1 60).unique hb
    omega

/-- A negative imbalance that is dropped while the supply is less takes only what there is: 100 withdrawn, deposited, withdrawn again;
both withdrawals are merged and dropped before the deposit is, and a supply of 100 is left of nothing. -/
theorem C217_order_refuted : ∃ s', run g [.withdraw 2 1 100 false, .deposit 2 1 100 , .withdraw 2 1 100 false, .merge 0 1, .drop 0,
    .drop 0] = .ok s' ∧ s'.held = [] ∧ s'.bal 2 1 = 0 ∧ s'.iss 2 = 100 := by
  have h2 : (run g [.withdraw 2 1 100 false, .deposit 2 1 100 , .withdraw 2 1 100 false, .merge 0 1, .drop 0, .drop 0]).toOption.map
    (fun s => (s.held, s.bal 2 1, s.iss 2)) = some ([], 0, 100) := by decide +kernel
  cases hr : run g [.withdraw 2 1 100 false, .deposit 2 1 100 , .withdraw 2 1 100 false, .merge 0 1, .drop 0, .drop 0] with
  | error e => rw [hr] at h2; cases h2
  | ok s' =>
    rw [hr] at h2
    have h2 := Option.some.inj h2
    simp only [Prod.mk.injEq] at h2
    exact ⟨s', rfl, h2⟩

/-- The way fees are paid: 50 taken, 20 given back, offset, the rest split in 5 and 25 and dropped. -/
example : AllFine g [.withdraw 2 1 50 false, .deposit 2 1 20, .offset 1 0, .split 0 5, .drop 1, .drop 0] ∧
    (run g [.withdraw 2 1 50 false, .deposit 2 1 20, .offset 1 0, .split 0 5, .drop 1, .drop 0]).toOption.map
      (fun s => (s.held, s.bal 2 1, s.iss 2)) = some ([], 70, 70) := by
  refine ⟨⟨trivial, fun s1 h1 => ⟨trivial, fun s2 h2 => ⟨?_, fun s3 h3 => ⟨trivial, fun s4 h4 => ⟨?_, fun s5 h5 => ⟨?_, fun _ _ => trivial⟩⟩⟩⟩⟩⟩,
    by decide +kernel⟩
  all_goals cases h1
  all_goals cases h2
  · intro x l y l' e1 e2
    cases e1
    cases e2
    exact .inl rfl
  all_goals cases h3
  all_goals cases h4
  · intro x l e1
    cases e1
    exact (by decide)
  · cases h5
    intro x l e1
    cases e1
    exact (by decide)

end Verif.Imbalance
