import Verif.Dex.Model

namespace Verif.Dex
open Ledger

theorem poolAddr_inj {p q : Pair} (h : poolAddr p = poolAddr q) : p = q := by
  unfold poolAddr at h
  have h1 := p.1.isLt; have h2 := p.2.isLt; have h3 := q.1.isLt; have h4 := q.2.isLt
  simp only [Nat.reducePow, Nat.reduceMul] at h
  change (_ : Nat) = (_ : Nat) at h
  apply Prod.ext <;> apply Fin.ext <;> omega

theorem burn_ne_pool (p : Pair) : burnAcct ≠ poolAddr p := by
  unfold poolAddr burnAcct
  have h1 := p.1.isLt; have h2 := p.2.isLt
  simp only [Nat.reducePow, Nat.reduceMul]
  change ¬ ((_ : Nat) = (_ : Nat))
  omega

@[simp] theorem subC_ok {a b x : Nat} : subC a b = .ok x ↔ b ≤ a ∧ a - b = x := by
  unfold subC; split <;> simp_all
@[simp] theorem add256_ok {a b x : Nat} : add256 a b = .ok x ↔ a + b < U256 ∧ a + b = x := by
  unfold add256; split <;> simp_all
@[simp] theorem mul256_ok {a b x : Nat} : mul256 a b = .ok x ↔ a * b < U256 ∧ a * b = x := by
  unfold mul256; split <;> simp_all
@[simp] theorem divC_ok {a b x : Nat} : divC a b = .ok x ↔ b ≠ 0 ∧ a / b = x := by
  unfold divC; split <;> simp_all

theorem sat128_le (a : Nat) : sat128 a ≤ a := Nat.min_le_left _ _
theorem sat128_pos {a : Nat} (h : 0 < a) : 0 < sat128 a := by
  unfold sat128 U128; omega

theorem mkPair_cases (a b : AssetId) (h : a ≠ b) :
    (mkPair a b = (a, b) ∧ a < b) ∨ (mkPair a b = (b, a) ∧ b < a) := by
  unfold mkPair
  split
  · right; simp_all
  · left; exact ⟨rfl, lt_of_le_of_ne (not_lt.mp ‹_›) h⟩

theorem mkPair_comm (a b : AssetId) : mkPair a b = mkPair b a := by
  by_cases h : a = b
  · rw [h]
  · unfold mkPair
    rcases lt_or_gt_of_ne h with h1 | h1 <;> simp [h1, not_lt.mpr (le_of_lt h1)]

/-! ### collectFee -/

theorem mintFee_ok {s : St} {l : AssetId} {ra rb : Nat} {r : St × Bool}
    (h : mintFee s l ra rb = .ok r) :
    ∃ k, r.1 = { s with led := r.1.led, lastK := k } ∧
      (r.1.led = s.led ∨ ∃ f m, s.feeTo = some f ∧ s.led.mint l f m = .ok r.1.led) := by
  unfold mintFee at h
  split at h
  · rename_i f hf
    split at h
    · dsimp only at h
      split at h
      · simp only [bind_ok] at h
        obtain ⟨liq, h1, h2⟩ := h
        split at h2
        · simp only [bind_ok, pure_ok] at h2
          obtain ⟨led, h3, rfl⟩ := h2
          exact ⟨s.lastK, rfl, Or.inr ⟨f, _, hf, h3⟩⟩
        · simp only [pure_ok] at h2; subst h2
          exact ⟨s.lastK, rfl, Or.inl rfl⟩
      · cases h; exact ⟨s.lastK, rfl, Or.inl rfl⟩
    · cases h; exact ⟨s.lastK, rfl, Or.inl rfl⟩
  · split at h
    · cases h; exact ⟨_, rfl, Or.inl rfl⟩
    · cases h; exact ⟨s.lastK, rfl, Or.inl rfl⟩

theorem collectFee_ok {s s' : St} {p : Pair} (h : collectFee s p = .ok s') :
    ∃ k, s' = { s with led := s'.led, lastK := k } ∧
      (s'.led = s.led ∨ ∃ f l m, s.feeTo = some f ∧ s.lp p = some l ∧
        s.led.mint l f m = .ok s'.led) := by
  unfold collectFee at h
  split at h
  · cases h; exact ⟨s.lastK, rfl, Or.inl rfl⟩
  · simp only [bind_ok, okOr_ok] at h
    obtain ⟨l, hl, r, hm, h2⟩ := h
    obtain ⟨k, e, hk⟩ := mintFee_ok hm
    split at h2
    · simp only [pure_ok] at h2; subst h2
      refine ⟨(if (s.res p).1 * (s.res p).2 < U256 then
        upd r.1.lastK l ((s.res p).1 * (s.res p).2) else r.1.lastK), ?_, ?_⟩
      · rw [e]
      · rcases hk with hk | ⟨f, m, hf, hk⟩
        · exact Or.inl hk
        · exact Or.inr ⟨f, l, m, hf, hl, hk⟩
    · simp only [pure_ok] at h2; subst h2
      refine ⟨k, e, ?_⟩
      rcases hk with hk | ⟨f, m, hf, hk⟩
      · exact Or.inl hk
      · exact Or.inr ⟨f, l, m, hf, hl, hk⟩

/-! ### one hop -/

theorem kCheck_ok {c : Cfg} {b0 b1 i0 i1 r0 r1 : Nat} (hd : 0 < c.feeD)
    (h : kCheck c b0 b1 i0 i1 r0 r1 = .ok ()) : r0 * r1 ≤ b0 * b1 ∧ (0 < i0 ∨ 0 < i1) := by
  unfold kCheck at h
  simp only [bind_ok, ensure_ok, mul256_ok, subC_ok] at h
  obtain ⟨_, hpos, x0, ⟨_, rfl⟩, y0, ⟨_, rfl⟩, a0, ⟨_, rfl⟩, x1, ⟨_, rfl⟩, y1, ⟨_, rfl⟩, a1, ⟨_, rfl⟩,
    lhs, ⟨_, rfl⟩, rr, ⟨_, rfl⟩, d2, ⟨_, rfl⟩, rhs, ⟨_, rfl⟩, hk⟩ := h
  refine ⟨?_, hpos⟩
  have h1 : (b0 * c.feeD - i0 * c.feeN) * (b1 * c.feeD - i1 * c.feeN)
      ≤ (b0 * c.feeD) * (b1 * c.feeD) := Nat.mul_le_mul (Nat.sub_le _ _) (Nat.sub_le _ _)
  have h2 : r0 * r1 * (c.feeD * c.feeD) ≤ b0 * b1 * (c.feeD * c.feeD) := by
    calc _ ≤ _ := hk
      _ ≤ _ := h1
      _ = _ := by ring
  exact Nat.le_of_mul_le_mul_right h2 (Nat.mul_pos hd hd)

/-- What a successful hop does. -/
theorem swapHop_ok {c : Cfg} {s s' : St} {a b : AssetId} {out : Nat} {dst : Acct}
    (h : swapHop c s a b out dst = .ok s') :
    a ≠ b ∧ 0 < out ∧
    ∃ led, s.led.transfer b (poolAddr (mkPair a b)) dst out = .ok led ∧
      (0 < c.feeD → (s.res (mkPair a b)).1 * (s.res (mkPair a b)).2 ≤
        led.bal (mkPair a b).1 (poolAddr (mkPair a b)) *
        led.bal (mkPair a b).2 (poolAddr (mkPair a b))) ∧
      collectFee { s with
        led := led,
        res := upd s.res (mkPair a b) (led.bal (mkPair a b).1 (poolAddr (mkPair a b)),
          led.bal (mkPair a b).2 (poolAddr (mkPair a b))) } (mkPair a b) = .ok s' := by
  unfold swapHop at h
  simp only [bind_ok, ensure_ok] at h
  obtain ⟨_, hne, _, hpos, _, hlt, led1, h1, led2, h2, _, hk, hf⟩ := h
  rcases mkPair_cases a b hne with ⟨e, hab⟩ | ⟨e, hab⟩
  · rw [e] at h1 h2 hpos hk hf ⊢
    dsimp only at h1 h2 hpos hk hf ⊢
    simp only [if_true, lt_irrefl, false_or, if_false, Except.ok.injEq] at h1 h2 hpos
    subst h1
    rw [if_pos hpos] at h2
    exact ⟨hne, hpos, led2, h2, fun hd => (kCheck_ok hd hk).1, hf⟩
  · rw [e] at h1 h2 hpos hk hf ⊢
    dsimp only at h1 h2 hpos hk hf ⊢
    simp only [hne, lt_irrefl, or_false, if_false, Except.ok.injEq] at h1 h2 hpos
    subst h2
    rw [if_pos hpos] at h1
    exact ⟨hne, hpos, led1, h1, fun hd => (kCheck_ok hd hk).1, hf⟩

/-! ### the loop -/

/-- Induction principle for `swapLoop`: a reflexive, transitive relation that holds of every hop along
the path holds of the loop. -/
theorem swapLoop_ind {c : Cfg} (R : St → St → Prop) (hrefl : ∀ s, R s s)
    (htrans : ∀ s t u, R s t → R t u → R s u) {dst : Acct}
    : ∀ (path : List AssetId) (amts : List Nat) (s s' : St),
    (∀ (a b : AssetId) (out : Nat) (d : Acct) (t t' : St), a ∈ path → b ∈ path →
      swapHop c t a b out d = .ok t' → R t t') →
    swapLoop c s dst amts path = .ok s' → R s s'
  | [], amts, s, s', _, h => by
    simp only [swapLoop, Except.ok.injEq] at h; subst h; exact hrefl _
  | [_], amts, s, s', _, h => by
    simp only [swapLoop, Except.ok.injEq] at h; subst h; exact hrefl _
  | a :: b :: rest, amts, s, s', hhop, h => by
    match amts with
    | [] => simp only [swapLoop, Except.ok.injEq] at h; subst h; exact hrefl _
    | [_] => simp only [swapLoop, Except.ok.injEq] at h; subst h; exact hrefl _
    | x :: out :: amts =>
      unfold swapLoop at h
      simp only [bind_ok] at h
      obtain ⟨s1, h1, h2⟩ := h
      refine htrans _ s1 _ (hhop a b out _ s s1 (by simp) (by simp) h1) ?_
      refine swapLoop_ind R hrefl htrans (b :: rest) (out :: amts) s1 s' ?_ h2
      intro a' b' o' d' t t' ha hb ht
      exact hhop a' b' o' d' t t' (List.mem_cons_of_mem _ ha) (List.mem_cons_of_mem _ hb) ht

theorem payAndSwap_ok {c : Cfg} {s s' : St} {who dst : Acct} {amts : List Nat}
    {path : List AssetId} (h : payAndSwap c s who dst amts path = .ok s') :
    ∃ a b rest led, path = a :: b :: rest ∧
      s.led.transfer a who (poolAddr (mkPair a b)) (amts.headD 0) = .ok led ∧
      swapLoop c { s with led := led } dst amts path = .ok s' := by
  unfold payAndSwap at h
  split at h
  · rename_i a b rest
    simp only [bind_ok] at h
    obtain ⟨led, h1, h2⟩ := h
    exact ⟨a, b, rest, led, rfl, h1, h2⟩
  · cases h

/-- Both swap entry points reduce to `payAndSwap` with a list of quoted amounts. -/
theorem swapExactSupply_ok {c : Cfg} {s s' : St} {who dst : Acct} {i m : Nat}
    {path : List AssetId} {dl : Option Nat}
    (h : swapExactSupply c s who i m path dst dl = .ok s') :
    deadlineOk dl s.now ∧ ∃ amts, 2 ≤ path.length ∧ amountsOutLoop c s i path = .ok amts ∧
      m ≤ amts.getLastD 0 ∧ payAndSwap c s who dst amts path = .ok s' := by
  unfold swapExactSupply getAmountsOut at h
  simp only [bind_ok, ensure_ok] at h
  obtain ⟨_, hd, amts, ⟨_, hl, ha⟩, _, hm, hp⟩ := h
  exact ⟨hd, amts, hl.1, ha, hm, hp⟩

theorem swapExactTarget_ok {c : Cfg} {s s' : St} {who dst : Acct} {o m : Nat}
    {path : List AssetId} {dl : Option Nat}
    (h : swapExactTarget c s who o m path dst dl = .ok s') :
    deadlineOk dl s.now ∧ ∃ amts, 2 ≤ path.length ∧ amountsInLoop c s o path = .ok amts ∧
      amts.headD 0 ≤ m ∧ payAndSwap c s who dst amts path = .ok s' := by
  unfold swapExactTarget getAmountsIn at h
  simp only [bind_ok, ensure_ok] at h
  obtain ⟨_, hd, amts, ⟨_, hl, ha⟩, _, hm, hp⟩ := h
  exact ⟨hd, amts, hl.1, ha, hm, hp⟩

/-! ### quoted amounts -/

theorem amountsOutLoop_shape {c : Cfg} {s : St} : ∀ (path : List AssetId) (i : Nat) (amts : List Nat),
    path ≠ [] → amountsOutLoop c s i path = .ok amts →
    amts.length = path.length ∧ amts.headD 0 = i
  | [], _, _, hne, _ => absurd rfl hne
  | [_], i, amts, _, h => by unfold amountsOutLoop at h; cases h; simp
  | a :: b :: rest, i, amts, _, h => by
    unfold amountsOutLoop at h
    simp only [bind_ok, ensure_ok, pure_ok] at h
    obtain ⟨_, _, _, _, out, _, _, _, tl, ht, rfl⟩ := h
    have := amountsOutLoop_shape (b :: rest) out tl (by simp) ht
    simp [this.1]

theorem amountsInLoop_shape {c : Cfg} {s : St} : ∀ (path : List AssetId) (o : Nat) (amts : List Nat),
    path ≠ [] → amountsInLoop c s o path = .ok amts →
    amts.length = path.length ∧ amts.getLastD 0 = o
  | [], _, _, hne, _ => absurd rfl hne
  | [_], i, amts, _, h => by unfold amountsInLoop at h; cases h; simp
  | a :: b :: rest, o, amts, _, h => by
    unfold amountsInLoop at h
    simp only [bind_ok, ensure_ok, pure_ok] at h
    obtain ⟨tl, ht, _, _, _, _, i, _, _, _, rfl⟩ := h
    have := amountsInLoop_shape (b :: rest) o tl (by simp) ht
    refine ⟨by simp [this.1], ?_⟩
    rw [← this.2]
    match tl, this.1 with
    | x :: xs, _ => simp

end Verif.Dex
