import Verif.Evm20.Spec

/-!
# C198, C199: the contract of an asset is an ERC-20 token, and its logs; C191 for assets
-/

namespace Verif.Evm20

theorem sat_of {x : Nat} (h : x < U128) : Erc20.sat x = x := by
  unfold Erc20.sat; omega

theorem sat_le (x : Nat) : Erc20.sat x ≤ x := by
  unfold Erc20.sat; omega

theorem sat_lt (x : Nat) : Erc20.sat x < U128 := by
  unfold Erc20.sat U128; omega

/-! ## Transfers -/

theorem move_ok {t t' : Asset} {src dst : Acct} {x : Nat} (h : move t src dst x = .ok t') :
    x ≤ reducible t src ∧ (t.bal dst ≠ 0 ∨ t.min ≤ x ∨ (t.native = true ∧ x = 0)) ∧
    (src = dst ∧ t' = t ∨ src ≠ dst ∧ t.bal dst + x < U128 ∧
      t' = { t with bal := upd (upd t.bal src (t.bal src - (x + dust t src x))) dst (t.bal dst + x) }) := by
  unfold move at h
  simp only [bind_ok, ensure_ok] at h
  obtain ⟨_, h1, _, h2, _, h3, h⟩ := h
  by_cases e : src = dst
  · rw [if_pos e, pure_ok] at h
    exact ⟨h1, h2, .inl ⟨e, h.symm⟩⟩
  · rw [if_neg e, pure_ok] at h
    exact ⟨h1, h2, .inr ⟨e, h3.resolve_left e, h.symm⟩⟩

theorem move_frame {t t' : Asset} {src dst : Acct} {x : Nat} (h : move t src dst x = .ok t') :
    t'.live = t.live ∧ t'.native = t.native ∧ t'.min = t.min ∧ t'.supply = t.supply ∧ t'.lock = t.lock := by
  obtain ⟨_, _, h | ⟨_, _, h⟩⟩ := move_ok h
  · rw [h.2]; exact ⟨rfl, rfl, rfl, rfl, rfl⟩
  · rw [h]; exact ⟨rfl, rfl, rfl, rfl, rfl⟩

theorem dust_one {t : Asset} (h : t.min = 1) (w : Acct) (x : Nat) : dust t w x = 0 := by
  unfold dust; rw [h]; split <;> omega

theorem dust_le {t : Asset} (w : Acct) (x : Nat) (hx : x ≤ t.bal w) : x + dust t w x ≤ t.bal w := by
  unfold dust; split <;> omega

/-- With minimum `1` a transfer moves what is asked. -/
theorem move_bal {t t' : Asset} {src dst : Acct} {x : Nat} (hm : t.min = 1) (h : move t src dst x = .ok t') :
    x ≤ t.bal src - t.lock src ∧ t'.bal = Ledger.move t.bal src dst x := by
  obtain ⟨h1, _, h2⟩ := move_ok h
  clear h
  unfold reducible at h1
  refine ⟨h1, ?_⟩
  rcases h2 with ⟨e, h⟩ | ⟨e, _, h⟩
  · subst e; rw [h]; funext w
    unfold Ledger.move upd
    by_cases hw : w = src
    · simp only [hw, if_true]; omega
    · simp only [if_neg hw]
  · rw [h, dust_one hm]
    unfold Ledger.move
    dsimp only [Nat.add_zero]
    rw [upd_ne (a := src) (x := dst) _ _ (Ne.symm e)]

/-- Transfers never create tokens. -/
theorem move_total {t t' : Asset} {src dst : Acct} {x n : Nat} (h : move t src dst x = .ok t') (ht : TotalIs t.bal n) :
    ∃ n', n' ≤ n ∧ TotalIs t'.bal n' ∧ (t.min = 1 → n' = n) := by
  obtain ⟨h1, _, h2⟩ := move_ok h
  unfold reducible at h1
  rcases h2 with ⟨_, h2⟩ | ⟨e, _, h2⟩
  · rw [h2]; exact ⟨n, le_refl _, ht, fun _ => rfl⟩
  · have a := ht.upd_sub src (x + dust t src x) (dust_le src x (by omega))
    have b := a.upd_add dst x
    rw [upd_ne (a := src) (x := dst) _ _ (Ne.symm e)] at b
    have l := ht.le src
    have d := dust_le (t := t) src x (by omega)
    refine ⟨_, ?_, by rw [h2]; exact b, ?_⟩
    · omega
    · intro hm; rw [dust_one hm]; omega

/-! ## What every history keeps -/

/-- Minimum balances are positive, and the supply covers the balances; exactly, if the minimum is `1`. -/
def Ok (t : Asset) : Prop :=
  1 ≤ t.min ∧ (t.native = true → t.min = 1) ∧ t.supply < U128 ∧
  ∃ n, n ≤ t.supply ∧ TotalIs t.bal n ∧ (t.min = 1 → n = t.supply)

theorem move_keeps {t t' : Asset} {src dst : Acct} {x : Nat} (h : move t src dst x = .ok t') (k : Ok t) : Ok t' := by
  obtain ⟨k1, k2, k3, n, k4, k5, k6⟩ := k
  obtain ⟨_, f1, f2, f3, _⟩ := move_frame h
  obtain ⟨n', h1, h2, h3⟩ := move_total h k5
  refine ⟨by omega, by rw [f1, f2]; exact k2, by omega, n', by omega, h2, ?_⟩
  intro hm
  rw [f2] at hm
  rw [h3 hm, k6 hm, f3]

theorem mint_ok {t t' : Asset} {w : Acct} {x : Nat} (h : mint t w x = .ok t') :
    t.supply + x < U128 ∧ t' = { t with
      bal := upd t.bal w (t.bal w + x)
      supply := t.supply + x } := by
  unfold mint at h
  simp only [bind_ok, ensure_ok, pure_ok] at h
  obtain ⟨_, _, _, _, _, h3, h⟩ := h
  exact ⟨h3, h.symm⟩

theorem mint_keeps {t t' : Asset} {w : Acct} {x : Nat} (h : mint t w x = .ok t') (k : Ok t) : Ok t' := by
  obtain ⟨k1, k2, k3, n, k4, k5, k6⟩ := k
  obtain ⟨h3, rfl⟩ := mint_ok h
  refine ⟨k1, k2, h3, n + x, ?_, k5.upd_add w x, ?_⟩
  · show n + x ≤ t.supply + x
    omega
  · intro hm
    show n + x = t.supply + x
    rw [k6 hm]

theorem burn_ok {t t' : Asset} {w : Acct} {x : Nat} (h : burn t w x = .ok t') :
    x ≤ reducible t w ∧ t' = { t with
      bal := upd t.bal w (t.bal w - (x + dust t w x))
      supply := t.supply - (x + dust t w x) } := by
  unfold burn at h
  simp only [bind_ok, ensure_ok, pure_ok] at h
  obtain ⟨_, _, _, h2, h⟩ := h
  exact ⟨h2, h.symm⟩

theorem burn_keeps {t t' : Asset} {w : Acct} {x : Nat} (h : burn t w x = .ok t') (k : Ok t) : Ok t' := by
  obtain ⟨k1, k2, k3, n, k4, k5, k6⟩ := k
  obtain ⟨h2, rfl⟩ := burn_ok h
  unfold reducible at h2
  have d := dust_le (t := t) w x (by omega)
  have l := k5.le w
  refine ⟨k1, k2, ?_, n - (x + dust t w x), ?_, k5.upd_sub w _ d, ?_⟩
  · show t.supply - (x + dust t w x) < U128
    omega
  · show n - (x + dust t w x) ≤ t.supply - (x + dust t w x)
    omega
  · intro hm
    show n - (x + dust t w x) = t.supply - (x + dust t w x)
    rw [k6 hm]

theorem create_ok {s s' : St} {a : AssetId} {least : Option Nat} (h : create s a least = .ok s') :
    (s.asset a).live = false ∧ (s.asset a).native = false ∧ least.getD 1 ≠ 0 ∧
    s' = setAsset s a ⟨true, false, least.getD 1, 0, fun _ => 0, fun _ => 0⟩ := by
  unfold create at h
  simp only [bind_ok, ensure_ok, pure_ok] at h
  obtain ⟨_, h1, _, h2, h⟩ := h
  exact ⟨h1.1, h1.2, h2, h.symm⟩

/-- What one call of a contract does to the assets. -/
theorem execute_asset {s s' : St} {m : Msg} {k : Call} {l : List Log} {o : Out} (h : execute s m k = .ok (s', l, o)) :
    (s.asset m.asset).live = true ∧ (m.static = false ∨ view k = true) ∧ m.value = 0 ∧ run s m k = .ok (s', l, o) := by
  unfold execute at h
  simp only [bind_ok, ensure_ok] at h
  obtain ⟨_, h1, _, h2, _, h3, h⟩ := h
  exact ⟨h1, h2, h3, h⟩

theorem transfer_ok {s s' : St} {m : Msg} {dst : Acct} {x : Nat} {l : List Log} {o : Out}
    (h : transfer s m dst x = .ok (s', l, o)) : ∃ t, move (s.asset m.asset) m.caller dst (Erc20.sat x) = .ok t ∧
      s' = setAsset s m.asset t ∧ l = [.transfer m.caller dst (Erc20.sat x)] ∧ o = .flag true := by
  unfold transfer at h
  simp only [bind_ok, pure_ok, Prod.mk.injEq] at h
  obtain ⟨t, h1, h2, h3, h4⟩ := h
  exact ⟨t, h1, h2.symm, h3.symm, h4.symm⟩

theorem transferFrom_ok {s s' : St} {m : Msg} {src dst : Acct} {x : Nat} {l : List Log} {o : Out}
    (h : transferFrom s m src dst x = .ok (s', l, o)) : ∃ v t, s.allow src m.asset m.caller = some v ∧ Erc20.sat x ≤ v ∧
      move (s.asset m.asset) src dst (Erc20.sat x) = .ok t ∧
      s' = setAsset (setAllow s src m.asset m.caller (if v - Erc20.sat x = 0 then none else some (v - Erc20.sat x)))
        m.asset t ∧ l = [.transfer src dst (Erc20.sat x)] ∧ o = .flag true := by
  unfold transferFrom at h
  simp only [bind_ok, okOr_ok, ensure_ok, pure_ok, Prod.mk.injEq] at h
  obtain ⟨v, h0, _, h1, t, h2, h3, h4, h5⟩ := h
  exact ⟨v, t, h0, h1, h2, h3.symm, h4.symm, h5.symm⟩

theorem approve_ok {s s' : St} {m : Msg} {p : Acct} {x : Nat} {l : List Log} {o : Out}
    (h : approve s m p x = .ok (s', l, o)) : m.caller ≠ p ∧
      s' = setAllow s m.caller m.asset p (some (Erc20.sat x)) ∧ l = [.approval m.caller p (Erc20.sat x)] ∧
      o = .flag true := by
  unfold approve at h
  simp only [bind_ok, ensure_ok, pure_ok, Prod.mk.injEq] at h
  obtain ⟨_, h1, h2, h3, h4⟩ := h
  exact ⟨h1, h2.symm, h3.symm, h4.symm⟩

/-- A call changes no asset, or one by a transfer. -/
theorem run_asset {s s' : St} {m : Msg} {k : Call} {l : List Log} {o : Out} (h : run s m k = .ok (s', l, o)) :
    s'.asset = s.asset ∨ ∃ src dst x t, move (s.asset m.asset) src dst x = .ok t ∧ s'.asset = upd s.asset m.asset t := by
  cases k with
  | totalSupply => cases h; exact .inl rfl
  | balanceOf _ => cases h; exact .inl rfl
  | allowance _ _ => cases h; exact .inl rfl
  | transfer dst x =>
    obtain ⟨t, h1, rfl, _, _⟩ := transfer_ok h
    exact .inr ⟨_, _, _, t, h1, rfl⟩
  | approve p x =>
    obtain ⟨_, rfl, _, _⟩ := approve_ok h
    exact .inl rfl
  | transferFrom src dst x =>
    obtain ⟨v, t, _, _, h1, rfl, _, _⟩ := transferFrom_ok h
    exact .inr ⟨_, _, _, t, h1, rfl⟩

theorem apply_keeps {s s' : St} {op : Op} {l : List (AssetId × Log)} (h : apply s op = .ok (s', l))
    (k : ∀ a, Ok (s.asset a)) (a : AssetId) : Ok (s'.asset a) := by
  have put : ∀ (b : AssetId) (t : Asset), Ok t → Ok (upd s.asset b t a) := by
    intro b t ht
    rw [upd_apply]
    split
    · exact ht
    · exact k a
  cases op with
  | call m c =>
    simp only [apply, bind_ok, pure_ok, Prod.mk.injEq] at h
    obtain ⟨⟨s1, l1, o1⟩, h1, h2, _⟩ := h
    dsimp only at h2
    subst h2
    rcases run_asset (execute_asset h1).2.2.2 with e | ⟨_, _, _, t, e1, e2⟩
    · rw [e]; exact k a
    · rw [e2]; exact put _ t (move_keeps e1 (k _))
  | mint b w x =>
    simp only [apply, bind_ok, pure_ok, Prod.mk.injEq] at h
    obtain ⟨t, h1, rfl, _⟩ := h
    exact put _ t (mint_keeps h1 (k _))
  | burn b w x =>
    simp only [apply, bind_ok, pure_ok, Prod.mk.injEq] at h
    obtain ⟨t, h1, rfl, _⟩ := h
    exact put _ t (burn_keeps h1 (k _))
  | pay b src dst x =>
    simp only [apply, bind_ok, ensure_ok, pure_ok, Prod.mk.injEq] at h
    obtain ⟨_, _, t, h1, rfl, _⟩ := h
    exact put _ t (move_keeps h1 (k _))
  | lock b w n =>
    simp only [apply, Except.ok.injEq, Prod.mk.injEq] at h
    obtain ⟨rfl, _⟩ := h
    exact put b { s.asset b with lock := upd (s.asset b).lock w n } (k b)
  | create b least =>
    simp only [apply, bind_ok, pure_ok, Prod.mk.injEq] at h
    obtain ⟨s1, h1, rfl, _⟩ := h
    obtain ⟨_, _, h2, rfl⟩ := create_ok h1
    refine put b _ ⟨?_, ?_, ?_, 0, le_refl _, TotalIs.zero, fun _ => rfl⟩
    · show 1 ≤ least.getD 1
      omega
    · intro e; cases e
    · show 0 < U128
      decide

theorem next_cases (w : World) (op : Op) :
    (∃ s' l, apply w.st op = .ok (s', l) ∧ next w op = ⟨s', w.logs ++ l⟩) ∨ next w op = w := by
  unfold next
  cases h : apply w.st op with
  | ok r => exact .inl ⟨r.1, r.2, rfl, rfl⟩
  | error _ => exact .inr rfl

theorem Reach.ok {w : World} (h : Reach w) : ∀ a, Ok (w.st.asset a) := by
  induction h with
  | start g =>
    intro a
    obtain ⟨_, g2, g3, g4, g5⟩ := g.2 a
    exact ⟨g2, g3, g5, _, le_refl _, g4, fun _ => rfl⟩
  | step op _ ih =>
    rcases next_cases _ op with ⟨s', l, h1, h2⟩ | h2
    · rw [h2]; exact apply_keeps h1 ih
    · rw [h2]; exact ih

/-! ## The standard -/

theorem moved_eq {t t' : Asset} {src dst : Acct} {x : Nat} (hm : t.min = 1) (h : move t src dst x = .ok t')
    (hf : t.lock dst ≤ t.bal dst) :
    (fun w => t'.bal w - t'.lock w) = moved (fun w => t.bal w - t.lock w) src dst x := by
  obtain ⟨h1, h2⟩ := move_bal hm h
  funext w
  rw [h2, (move_frame h).2.2.2.2]
  have sp := Ledger.move_spec (f := t.bal) (s := src) (d := dst) (x := x) (by omega) w
  unfold moved
  dsimp only
  by_cases e : src = dst
  · subst e
    rw [if_pos rfl]
    by_cases hw : w = src
    · rw [if_pos hw] at sp; omega
    · rw [if_neg hw] at sp; omega
  · rw [if_neg e]
    by_cases hw : w = src
    · subst hw
      rw [if_pos rfl, if_neg e] at sp
      rw [if_pos rfl]; omega
    · rw [if_neg hw] at sp
      rw [if_neg hw]
      by_cases hd : w = dst
      · subst hd
        rw [if_pos rfl] at sp
        rw [if_pos rfl]; omega
      · rw [if_neg hd] at sp
        rw [if_neg hd]; omega

theorem setAllow_get (s : St) (o : Acct) (a : AssetId) (p : Acct) (v : Option Nat) (o' : Acct) (a' : AssetId) (p' : Acct) :
    (setAllow s o a p v).allow o' a' p' = if o' = o ∧ a' = a ∧ p' = p then v else s.allow o' a' p' := by
  unfold setAllow
  dsimp only
  by_cases h1 : o' = o
  · subst h1
    rw [upd_same]
    by_cases h2 : a' = a
    · subst h2
      rw [upd_same]
      by_cases h3 : p' = p
      · subst h3; rw [upd_same, if_pos ⟨rfl, rfl, rfl⟩]
      · rw [upd_ne _ _ h3, if_neg (fun h => h3 h.2.2)]
    · rw [upd_ne _ _ h2, if_neg (fun h => h2 h.2.1)]
  · rw [upd_ne _ _ h1, if_neg (fun h => h1 h.1)]

theorem setAllow_granted (s : St) (o : Acct) (a : AssetId) (p : Acct) (v : Option Nat) :
    (fun o' p' => ((setAllow s o a p v).allow o' a p').getD 0) =
      granted (fun o' p' => (s.allow o' a p').getD 0) o p (v.getD 0) := by
  funext o' p'
  rw [setAllow_get]
  unfold granted
  by_cases h : o' = o ∧ p' = p
  · rw [if_pos ⟨h.1, rfl, h.2⟩, if_pos h]
  · rw [if_neg (fun k => h ⟨k.1, k.2.2⟩), if_neg h]

/-- The contract whose asset and allowances are these. -/
theorem abs_eq {s s' : St} {a : AssetId} {b : Acct → Nat} {f : Acct → Acct → Nat}
    (h1 : (s'.asset a).supply = (s.asset a).supply) (h2 : (fun w => (s'.asset a).bal w - (s'.asset a).lock w) = b)
    (h3 : (fun o p => (s'.allow o a p).getD 0) = f) : abs s' a = ⟨(abs s a).supply, b, f⟩ := by
  unfold abs
  rw [h1, h2, h3]

def x0 : St where
  asset := fun a => if a = 1 then ⟨true, true, 1, 1000, upd (fun _ => 0) 5 1000, fun _ => 0⟩
    else ⟨false, false, 1, 0, fun _ => 0, fun _ => 0⟩
  allow := fun _ _ _ => none

theorem x0_genesis : Genesis x0 := by
  refine ⟨fun _ _ _ => rfl, fun a => ?_⟩
  unfold x0
  dsimp only
  by_cases h : a = 1
  · rw [if_pos h]
    refine ⟨rfl, le_refl _, fun _ => rfl, ?_, by decide⟩
    have := (TotalIs.zero (α := Acct)).upd_add 5 1000
    exact this
  · rw [if_neg h]
    exact ⟨rfl, le_refl _, (fun e => by cases e), TotalIs.zero, by decide⟩

theorem exec_reach (ops : List Op) {w : World} (h : Reach w) : Reach (exec w ops) := by
  induction ops generalizing w with
  | nil => exact h
  | cons op ops ih => exact ih (.step op h)

/-- **C198 (partial)**: a successful call of the contract of an asset does what EIP-20 says: it answers, changes and logs
what the standard says and leaves every other contract alone. The minimum balance must be `1`, as it is unless the creator
asked for another one, the amount must be less than `2^128`, and the receiver not be frozen. -/
theorem C198_std_partial {w : World} (_ : Reach w) {m : Msg} {k : Call} {s' : St} {l : List Log} {o : Out}
    (h : execute w.st m k = .ok (s', l, o)) (hm : (w.st.asset m.asset).min = 1) (hx : amount k < U128)
    (hf : ∀ d, receiver k = some d → Free w.st m.asset d) :
    Std (abs w.st m.asset) m.caller k (abs s' m.asset) l o ∧ ∀ b, b ≠ m.asset → abs s' b = abs w.st b := by
  have hr := (execute_asset h).2.2.2
  cases k with
  | totalSupply => cases hr; exact ⟨⟨rfl, rfl, rfl⟩, fun _ _ => rfl⟩
  | balanceOf _ => cases hr; exact ⟨⟨rfl, rfl, rfl⟩, fun _ _ => rfl⟩
  | allowance _ _ => cases hr; exact ⟨⟨rfl, rfl, rfl⟩, fun _ _ => rfl⟩
  | transfer dst x =>
    obtain ⟨t, h1, rfl, rfl, rfl⟩ := transfer_ok hr
    rw [sat_of (x := x) hx] at h1 ⊢
    have fr := move_frame h1
    refine ⟨⟨(move_bal hm h1).1, ?_, rfl, rfl⟩, ?_⟩
    · apply abs_eq
      · show (upd w.st.asset m.asset t m.asset).supply = _
        rw [upd_same]; exact fr.2.2.2.1
      · show (fun w' => (upd w.st.asset m.asset t m.asset).bal w' - (upd w.st.asset m.asset t m.asset).lock w') = _
        rw [upd_same]
        exact moved_eq hm h1 (hf dst rfl)
      · rfl
    · intro b hb
      show abs ⟨upd w.st.asset m.asset t, w.st.allow⟩ b = _
      unfold abs
      dsimp only
      rw [upd_ne _ _ hb]
  | approve p x =>
    obtain ⟨_, rfl, rfl, rfl⟩ := approve_ok hr
    rw [sat_of (x := x) hx]
    refine ⟨⟨?_, rfl, rfl⟩, ?_⟩
    · apply abs_eq
      · rfl
      · rfl
      · exact setAllow_granted _ _ _ _ _
    · intro b hb
      unfold abs
      congr 1
      funext o p'
      rw [setAllow_get, if_neg (fun k => hb k.2.1)]
  | transferFrom src dst x =>
    obtain ⟨v, t, h0, hv, h1, rfl, rfl, rfl⟩ := transferFrom_ok hr
    rw [sat_of (x := x) hx] at h1 hv ⊢
    have fr := move_frame h1
    have ev : (abs w.st m.asset).allow src m.caller = v := by
      show (w.st.allow src m.asset m.caller).getD 0 = v
      rw [h0]; rfl
    refine ⟨⟨(move_bal hm h1).1, by rw [ev]; exact hv, ?_, rfl, rfl⟩, ?_⟩
    · rw [ev]
      apply abs_eq
      · show (upd w.st.asset m.asset t m.asset).supply = _
        rw [upd_same]; exact fr.2.2.2.1
      · show (fun w' => (upd w.st.asset m.asset t m.asset).bal w' - (upd w.st.asset m.asset t m.asset).lock w') = _
        rw [upd_same]
        exact moved_eq hm h1 (hf dst rfl)
      · have e := setAllow_granted w.st src m.asset m.caller (if v - x = 0 then none else some (v - x))
        have e2 : (if v - x = 0 then none else some (v - x) : Option Nat).getD 0 = v - x := by
          split
          · rename_i z; rw [z]; rfl
          · rfl
        rw [e2] at e
        exact e
    · intro b hb
      show abs ⟨upd w.st.asset m.asset t, (setAllow w.st src m.asset m.caller _).allow⟩ b = _
      unfold abs
      dsimp only
      rw [upd_ne _ _ hb]
      congr 1
      funext o p'
      rw [setAllow_get, if_neg (fun k => hb k.2.1)]

/-- **C198 (partial)**: the calls that EIP-20 lets succeed do, if they come without XRP, not in a static call where they
change something, name less than `2^128` and no minimum other than `1` is set. What is missing: nobody can approve
themselves, amounts of zero can be sent only to accounts that have tokens and only with an approval that is not used up. -/
theorem C198_allowed_partial {w : World} (hw : Reach w) {m : Msg} {k : Call} (hl : (w.st.asset m.asset).live = true)
    (hs : m.static = false ∨ view k = true) (hv : m.value = 0) (hm : (w.st.asset m.asset).min = 1) (hx : amount k < U128)
    (ha : Allowed (abs w.st m.asset) m.caller k)
    (hz : ∀ d, receiver k = some d → 0 < amount k) (hp : ∀ p x, k = .approve p x → p ≠ m.caller) :
    (execute w.st m k).isOk = true := by
  have key : ∀ src dst x, x ≤ reducible (w.st.asset m.asset) src → 0 < x →
      ∃ t, move (w.st.asset m.asset) src dst x = .ok t := by
    intro src dst x h1 h2
    obtain ⟨_, _, k3, n, k4, k5, _⟩ := hw.ok m.asset
    unfold move
    have g1 : (w.st.asset m.asset).bal dst ≠ 0 ∨ (w.st.asset m.asset).min ≤ x ∨
        ((w.st.asset m.asset).native = true ∧ x = 0) := by
      right; left; omega
    have g2 : src = dst ∨ (w.st.asset m.asset).bal dst + x < U128 := by
      by_cases e : src = dst
      · exact .inl e
      · right
        have := k5.le₂ e
        unfold reducible at h1
        omega
    rw [ensure_pos h1, ensure_pos g1, ensure_pos g2]
    by_cases e : src = dst
    · exact ⟨_, if_pos e⟩
    · exact ⟨_, if_neg e⟩
  have out : ∃ r, execute w.st m k = .ok r := by
    unfold execute
    rw [ensure_pos hl, ensure_pos hs, ensure_pos hv]
    show ∃ r, run w.st m k = .ok r
    cases k with
    | totalSupply => exact ⟨_, rfl⟩
    | balanceOf _ => exact ⟨_, rfl⟩
    | allowance _ _ => exact ⟨_, rfl⟩
    | transfer dst x =>
      have hx' : x < U128 := hx
      have ha' : x ≤ reducible (w.st.asset m.asset) m.caller := ha
      obtain ⟨t, ht⟩ := key m.caller dst x ha' (hz dst rfl)
      show ∃ r, transfer w.st m dst x = .ok r
      unfold transfer
      rw [sat_of hx', ht]
      exact ⟨_, rfl⟩
    | approve p x =>
      show ∃ r, approve w.st m p x = .ok r
      unfold approve
      rw [ensure_pos (Ne.symm (hp p x rfl))]
      exact ⟨_, rfl⟩
    | transferFrom src dst x =>
      have hx' : x < U128 := hx
      obtain ⟨ha1, ha2⟩ : x ≤ reducible (w.st.asset m.asset) src ∧ x ≤ (w.st.allow src m.asset m.caller).getD 0 := ha
      have h0 : 0 < x := hz dst rfl
      obtain ⟨t, ht⟩ := key src dst x ha1 h0
      cases e : w.st.allow src m.asset m.caller with
      | none => rw [e] at ha2; simp at ha2; omega
      | some v =>
        rw [e] at ha2
        have ha3 : x ≤ v := ha2
        show ∃ r, transferFrom w.st m src dst x = .ok r
        unfold transferFrom
        rw [sat_of hx', e]
        simp only [bind_ok, okOr_ok, ensure_ok, pure_ok]
        exact ⟨_, v, rfl, (), ha3, t, ht, rfl⟩
  obtain ⟨r, hr⟩ := out
  rw [hr]; rfl

/-- **C198 (partial)**: what all accounts have by `balanceOf` adds up to at most `totalSupply`, and to exactly that if the
minimum balance is `1` and nothing is locked. -/
theorem C198_supply_partial {w : World} (h : Reach w) (a : AssetId) :
    ∃ n, TotalIs (abs w.st a).bal n ∧ n ≤ (abs w.st a).supply ∧ (abs w.st a).supply < U128 ∧
      ((w.st.asset a).min = 1 → (∀ x, (w.st.asset a).lock x = 0) → n = (abs w.st a).supply) := by
  obtain ⟨_, _, k3, n, k4, ⟨S, k5, k6⟩, k7⟩ := h.ok a
  refine ⟨S.sum (abs w.st a).bal, ⟨S, ?_, rfl⟩, ?_, k3, ?_⟩
  · intro x hx
    show (w.st.asset a).bal x - (w.st.asset a).lock x = 0
    rw [k5 x hx]; omega
  · refine le_trans (Finset.sum_le_sum (fun x _ => ?_)) (k6 ▸ k4)
    show (w.st.asset a).bal x - (w.st.asset a).lock x ≤ (w.st.asset a).bal x
    omega
  · intro hm hl
    show _ = (w.st.asset a).supply
    rw [← k7 hm, ← k6]
    apply Finset.sum_congr rfl
    intro x _
    show (w.st.asset a).bal x - (w.st.asset a).lock x = (w.st.asset a).bal x
    rw [hl x]; omega

/-- A message of an account to asset 1 or 101. -/
def msg (a : AssetId) (w : Acct) : Msg := ⟨a, w, 0, false⟩

/-- Asset 101, of which account 5 has 100, and which 6 may spend 40. -/
def w1 : World := exec ⟨x0, []⟩ [.create 101 none, .mint 101 5 100, .call (msg 101 5) (.approve 6 40)]

theorem w1_reach : Reach w1 := exec_reach _ (.start x0_genesis)

example : (execute w1.st (msg 101 6) (.transferFrom 5 7 30)).isOk = true ∧ (w1.st.asset 101).min = 1 ∧
    (w1.st.asset 101).lock 7 ≤ (w1.st.asset 101).bal 7 ∧ w1.logs = [(101, .approval 5 6 40)] := by decide +kernel
example : Allowed (abs w1.st 101) 6 (.transferFrom 5 7 30) := by
  show 30 ≤ _ ∧ 30 ≤ _
  decide +kernel
example : ∀ x, (w1.st.asset 101).lock x = 0 := fun _ => rfl

/-- **C198 (refuted in full)**: the balances do not add up to the supply when tokens are locked. -/
theorem C198_supply_refuted : ∃ w, Reach w ∧ (w.st.asset 1).native = true ∧ ¬ TotalIs (abs w.st 1).bal (abs w.st 1).supply := by
  refine ⟨exec ⟨x0, []⟩ [.lock 1 5 400], exec_reach _ (.start x0_genesis), rfl, ?_⟩
  intro h
  obtain ⟨S, h1, h2⟩ := h
  have e : (abs (exec ⟨x0, []⟩ [.lock 1 5 400]).st 1).bal = upd (fun _ => 0) 5 600 := by
    funext x
    show (upd (fun _ => 0) 5 1000 x : Nat) - upd (fun _ => 0) 5 400 x = _
    rw [upd_apply, upd_apply, upd_apply]; split <;> rfl
  rw [e] at h1 h2
  have t : TotalIs (upd (fun _ : Acct => 0) 5 600) 600 := TotalIs.zero.upd_add 5 600
  have := t.unique ⟨S, h1, h2⟩
  revert this
  decide +kernel

/-- **C198 (refuted in full)**: sending nothing to an account without tokens fails. -/
theorem C198_zero_refuted : ∃ w, Reach w ∧ (w.st.asset 101).live = true ∧ (w.st.asset 101).min = 1 ∧
    Allowed (abs w.st 101) 5 (.transfer 9 0) ∧ errIs (execute w.st (msg 101 5) (.transfer 9 0)) "BelowMinimum" = true :=
  ⟨w1, w1_reach, by decide +kernel, by decide +kernel, Nat.zero_le _, by decide +kernel⟩

/-- **C198 (refuted in full)**: nobody can take nothing from an account that has not approved them, and nobody can approve
themselves. -/
theorem C198_approval_refuted : ∃ w, Reach w ∧ (w.st.asset 101).live = true ∧
    Allowed (abs w.st 101) 9 (.transferFrom 5 5 0) ∧
    errIs (execute w.st (msg 101 9) (.transferFrom 5 5 0)) "CallerNotApproved" = true ∧
    errIs (execute w.st (msg 101 5) (.approve 5 10)) "CallerNotOperator" = true :=
  ⟨w1, w1_reach, by decide +kernel, ⟨Nat.zero_le _, Nat.zero_le _⟩, by decide +kernel, by decide +kernel⟩

/-- **C198 (refuted in full)**: an approval of `2^256 - 1`, by which contracts mean no limit, is recorded and logged as
`2^128 - 1`, and used up. -/
theorem C198_unlimited_refuted : ∃ w s s' l l' o o', Reach w ∧
    execute w.st (msg 101 5) (.approve 7 (U256 - 1)) = .ok (s, l, o) ∧ l = [.approval 5 7 (U128 - 1)] ∧
    execute s (msg 101 7) (.transferFrom 5 8 10) = .ok (s', l', o') ∧ (abs s' 101).allow 5 7 = U128 - 11 := by
  have e1 := ok_getD (x := execute w1.st (msg 101 5) (.approve 7 (U256 - 1))) (d := (x0, [], .num 0)) (by decide +kernel)
  have e2 := ok_getD (x := execute ((execute w1.st (msg 101 5) (.approve 7 (U256 - 1))).toOption.getD (x0, [], .num 0)).1
    (msg 101 7) (.transferFrom 5 8 10)) (d := (x0, [], .num 0)) (by decide +kernel)
  exact ⟨w1, _, _, _, _, _, _, w1_reach, e1, by decide +kernel, e2, by decide +kernel⟩

/-- **C198 (refuted in full)**: where the creator of the asset chose a larger minimum balance, a transfer takes more than it
says, and what it takes is gone although still part of the supply; smaller transfers fail. -/
theorem C198_dust_refuted : ∃ w s l o, Reach w ∧ (w.st.asset 102).min = 10 ∧ (abs w.st 102).bal 5 = 100 ∧
    execute w.st (msg 102 5) (.transfer 6 95) = .ok (s, l, o) ∧ l = [.transfer 5 6 95] ∧
    (abs s 102).bal 5 = 0 ∧ (abs s 102).bal 6 = 95 ∧ (abs s 102).supply = 100 ∧
    errIs (execute w.st (msg 102 5) (.transfer 6 9)) "BelowMinimum" = true := by
  have e1 := ok_getD (x := execute (exec ⟨x0, []⟩ [.create 102 (some 10), .mint 102 5 100]).st (msg 102 5) (.transfer 6 95))
    (d := (x0, [], .num 0)) (by decide +kernel)
  exact ⟨exec ⟨x0, []⟩ [.create 102 (some 10), .mint 102 5 100], _, _, _, exec_reach _ (.start x0_genesis), by decide +kernel,
    by decide +kernel, e1, by decide +kernel, by decide +kernel, by decide +kernel, by decide +kernel, by decide +kernel⟩

/-- **C198 (refuted in full)**: what a frozen account is sent does not show. -/
theorem C198_frozen_refuted : ∃ w s l o, Reach w ∧ (w.st.asset 101).min = 1 ∧
    execute w.st (msg 101 5) (.transfer 6 30) = .ok (s, l, o) ∧ (abs s 101).bal 5 = (abs w.st 101).bal 5 - 30 ∧
    (abs w.st 101).bal 6 = 0 ∧ (abs s 101).bal 6 = 0 := by
  have e1 := ok_getD (x := execute (exec w1 [.lock 101 6 U128]).st (msg 101 5) (.transfer 6 30))
    (d := (x0, [], .num 0)) (by decide +kernel)
  exact ⟨exec w1 [.lock 101 6 U128], _, _, _, exec_reach _ w1_reach, by decide +kernel, e1, by decide +kernel,
    by decide +kernel, by decide +kernel⟩

/-! ## The logs -/

theorem logsOf_append (a : AssetId) (l l' : List (AssetId × Log)) : logsOf a (l ++ l') = logsOf a l ++ logsOf a l' := by
  unfold logsOf; rw [List.filter_append, List.map_append]

theorem logsOf_map (a b : AssetId) (l : List Log) : logsOf a (l.map (fun g => (b, g))) = if b = a then l else [] := by
  unfold logsOf
  induction l with
  | nil => split <;> rfl
  | cons g l ih =>
    rw [List.map_cons, List.filter_cons]
    by_cases h : b = a
    · rw [if_pos h] at ih ⊢
      rw [if_pos (by simpa using h), List.map_cons, ih]
    · rw [if_neg h] at ih ⊢
      rw [if_neg (by simpa using h), ih]

theorem net_append (w : Acct) (l l' : List Log) : net w (l ++ l') = net w l + net w l' := by
  induction l with
  | nil => simp [net]
  | cons g l ih =>
    cases g with
    | transfer s d x => simp only [List.cons_append, net, ih]; omega
    | approval o p x => simp only [List.cons_append, net, ih]

theorem lastApproval_append (o p : Acct) (l l' : List Log) : lastApproval o p (l ++ l') =
    l'.foldl (hearApproval o p) (lastApproval o p l) := by
  unfold lastApproval; rw [List.foldl_append]

/-- **C199**: nobody can ever spend more of an account's tokens than the last `Approval` in the logs says (nothing if there
is none), whatever happens on the chain. -/
theorem C199_allowance {w : World} (h : Reach w) (a : AssetId) (o p : Acct) :
    (abs w.st a).allow o p ≤ lastApproval o p (logsOf a w.logs) := by
  have frame : ∀ {s s' : St} {L : List (AssetId × Log)}, s'.allow = s.allow →
      (abs s a).allow o p ≤ lastApproval o p (logsOf a L) → (abs s' a).allow o p ≤ lastApproval o p (logsOf a (L ++ [])) := by
    intro s s' L e h
    rw [List.append_nil]
    show (s'.allow o a p).getD 0 ≤ _
    rw [e]; exact h
  induction h with
  | start g =>
    show (_ : Option Nat).getD 0 ≤ _
    rw [g.1]; exact Nat.zero_le _
  | step op _ ih =>
    rename_i w0 _
    rcases next_cases w0 op with ⟨s', l, h1, h2⟩ | h2
    · rw [h2]
      show (abs s' a).allow o p ≤ lastApproval o p (logsOf a (w0.logs ++ l))
      cases op with
      | call m k =>
        simp only [apply, bind_ok, pure_ok, Prod.mk.injEq] at h1
        obtain ⟨⟨s1, l1, o1⟩, h1, e1, e2⟩ := h1
        dsimp only at e1 e2
        subst e1 e2
        have hr := (execute_asset h1).2.2.2
        rw [logsOf_append, logsOf_map, lastApproval_append]
        cases k with
        | totalSupply => cases hr; split <;> exact ih
        | balanceOf _ => cases hr; split <;> exact ih
        | allowance _ _ => cases hr; split <;> exact ih
        | transfer dst x =>
          obtain ⟨t, _, rfl, rfl, _⟩ := transfer_ok hr
          split <;> exact ih
        | approve q x =>
          obtain ⟨_, rfl, rfl, _⟩ := approve_ok hr
          show ((setAllow _ _ _ _ _).allow o a p).getD 0 ≤ _
          rw [setAllow_get]
          by_cases e : m.asset = a
          · rw [if_pos e]
            simp only [List.foldl_cons, List.foldl_nil, hearApproval]
            by_cases e2 : m.caller = o ∧ q = p
            · rw [if_pos e2, if_pos ⟨e2.1.symm, e.symm, e2.2.symm⟩]
              exact le_refl _
            · rw [if_neg e2, if_neg (fun k => e2 ⟨k.1.symm, k.2.2.symm⟩)]
              exact ih
          · rw [if_neg e, if_neg (fun k => e k.2.1.symm)]
            exact ih
        | transferFrom src dst x =>
          obtain ⟨v, t, h0, hv, _, rfl, rfl, _⟩ := transferFrom_ok hr
          show ((setAllow _ _ _ _ _).allow o a p).getD 0 ≤ _
          have base : ((setAllow w0.st src m.asset m.caller
              (if v - Erc20.sat x = 0 then none else some (v - Erc20.sat x))).allow o a p).getD 0 ≤
              (abs w0.st a).allow o p := by
            rw [setAllow_get]
            split
            · rename_i k
              show _ ≤ (w0.st.allow o a p).getD 0
              rw [k.1, k.2.1, k.2.2, h0]
              split
              · exact Nat.zero_le _
              · exact Nat.sub_le _ _
            · exact le_refl _
          have := le_trans base ih
          by_cases e : m.asset = a
          · rw [if_pos e]; exact this
          · rw [if_neg e]; exact this
      | mint b x y =>
        simp only [apply, bind_ok, pure_ok, Prod.mk.injEq] at h1
        obtain ⟨t, _, rfl, rfl⟩ := h1
        exact frame rfl ih
      | burn b x y =>
        simp only [apply, bind_ok, pure_ok, Prod.mk.injEq] at h1
        obtain ⟨t, _, rfl, rfl⟩ := h1
        exact frame rfl ih
      | pay b x y z =>
        simp only [apply, bind_ok, ensure_ok, pure_ok, Prod.mk.injEq] at h1
        obtain ⟨_, _, t, _, rfl, rfl⟩ := h1
        exact frame rfl ih
      | lock b x n =>
        simp only [apply, Except.ok.injEq, Prod.mk.injEq] at h1
        obtain ⟨rfl, rfl⟩ := h1
        exact frame rfl ih
      | create b least =>
        simp only [apply, bind_ok, pure_ok, Prod.mk.injEq] at h1
        obtain ⟨s1, h1, rfl, rfl⟩ := h1
        obtain ⟨_, _, _, rfl⟩ := create_ok h1
        exact frame rfl ih
    · rw [h2]; exact ih

example : lastApproval 5 6 (logsOf 101 w1.logs) = 40 ∧ (abs w1.st 101).allow 5 6 = 40 := by decide +kernel

theorem move_net {t t' : Asset} {src dst : Acct} {x : Nat} (hm : t.min = 1) (hl : ∀ w, t.lock w = 0)
    (h : move t src dst x = .ok t') (w : Acct) :
    ((t'.bal w - t'.lock w : Nat) : Int) = ((t.bal w - t.lock w : Nat) : Int) + net w [.transfer src dst x] := by
  obtain ⟨h1, h2⟩ := move_bal hm h
  have sp := Ledger.move_spec (f := t.bal) (s := src) (d := dst) (x := x) (by omega) w
  rw [h2, (move_frame h).2.2.2.2, hl w]
  simp only [net]
  have d : (if dst = w then (x : Int) else 0) = ((if w = dst then x else 0 : Nat) : Int) := by
    by_cases e : w = dst
    · rw [if_pos e, if_pos e.symm]
    · rw [if_neg e, if_neg (Ne.symm e)]; rfl
  have s : (if src = w then (x : Int) else 0) = ((if w = src then x else 0 : Nat) : Int) := by
    by_cases e : w = src
    · rw [if_pos e, if_pos e.symm]
    · rw [if_neg e, if_neg (Ne.symm e)]; rfl
  rw [d, s]
  omega

/-- A history of calls only. -/
def calls (ks : List (Msg × Call)) : List Op := ks.map (fun c => .call c.1 c.2)

/-- **C199 (partial)**: through any calls of contracts the `Transfer` logs of an asset whose minimum balance is `1` and of
which nothing is locked tell the balance of every account, and no other logs matter. What is missing: everything that
happens to tokens by other means than the contract. -/
theorem C199_balance_partial {w : World} (_ : Reach w) (a : AssetId) (hm : (w.st.asset a).min = 1)
    (hl : ∀ x, (w.st.asset a).lock x = 0) (ks : List (Msg × Call)) (x : Acct) :
    ∃ l, (exec w (calls ks)).logs = w.logs ++ l ∧
      ((abs (exec w (calls ks)).st a).bal x : Int) = (abs w.st a).bal x + net x (logsOf a l) := by
  have gen : ∀ (ks : List (Msg × Call)) (w : World), (w.st.asset a).min = 1 → (∀ x, (w.st.asset a).lock x = 0) →
      ∃ l, (exec w (calls ks)).logs = w.logs ++ l ∧
      ((abs (exec w (calls ks)).st a).bal x : Int) = (abs w.st a).bal x + net x (logsOf a l) := by
    intro ks
    induction ks with
    | nil => intro w _ _; exact ⟨[], (List.append_nil _).symm, (add_zero _).symm⟩
    | cons c ks ih =>
      intro w hm hl
      obtain ⟨m, k⟩ := c
      have step : ∃ l, (next w (.call m k)).logs = w.logs ++ l ∧ ((next w (.call m k)).st.asset a).min = 1 ∧
          (∀ x, ((next w (.call m k)).st.asset a).lock x = 0) ∧
          ((abs (next w (.call m k)).st a).bal x : Int) = (abs w.st a).bal x + net x (logsOf a l) := by
        rcases next_cases w (.call m k) with ⟨s', l, h1, h2⟩ | h2
        · rw [h2]
          refine ⟨l, rfl, ?_⟩
          simp only [apply, bind_ok, pure_ok, Prod.mk.injEq] at h1
          obtain ⟨⟨s1, l1, o1⟩, h1, e1, e2⟩ := h1
          dsimp only at e1 e2
          subst e1 e2
          have hr := (execute_asset h1).2.2.2
          rw [logsOf_map]
          have tr : ∀ src dst y t, move (w.st.asset m.asset) src dst y = .ok t → s1.asset = upd w.st.asset m.asset t →
              l1 = [.transfer src dst y] → (s1.asset a).min = 1 ∧ (∀ x, (s1.asset a).lock x = 0) ∧
              ((abs s1 a).bal x : Int) = (abs w.st a).bal x + net x (if m.asset = a then l1 else []) := by
            intro src dst y t ht es el
            have fr := move_frame ht
            by_cases e : m.asset = a
            · rw [if_pos e, el]
              rw [e] at ht fr es
              show (s1.asset a).min = 1 ∧ (∀ x, (s1.asset a).lock x = 0) ∧
                (((s1.asset a).bal x - (s1.asset a).lock x : Nat) : Int) = _
              rw [es, upd_same]
              exact ⟨fr.2.2.1.trans hm, fun x => by rw [fr.2.2.2.2]; exact hl x, move_net hm hl ht x⟩
            · rw [if_neg e]
              show (s1.asset a).min = 1 ∧ (∀ x, (s1.asset a).lock x = 0) ∧
                (((s1.asset a).bal x - (s1.asset a).lock x : Nat) : Int) = _
              rw [es, upd_ne _ _ (Ne.symm e)]
              exact ⟨hm, hl, (add_zero _).symm⟩
          have no : s1.asset = w.st.asset → net x l1 = 0 → (s1.asset a).min = 1 ∧ (∀ x, (s1.asset a).lock x = 0) ∧
              ((abs s1 a).bal x : Int) = (abs w.st a).bal x + net x (if m.asset = a then l1 else []) := by
            intro es en
            show (s1.asset a).min = 1 ∧ (∀ x, (s1.asset a).lock x = 0) ∧
              (((s1.asset a).bal x - (s1.asset a).lock x : Nat) : Int) = _
            rw [es]
            refine ⟨hm, hl, ?_⟩
            split
            · rw [en]; exact (add_zero _).symm
            · exact (add_zero _).symm
          cases k with
          | totalSupply => cases hr; exact no rfl rfl
          | balanceOf _ => cases hr; exact no rfl rfl
          | allowance _ _ => cases hr; exact no rfl rfl
          | transfer dst y =>
            obtain ⟨t, ht, hs, e, _⟩ := transfer_ok hr
            exact tr _ _ _ t ht (by rw [hs]; rfl) e
          | approve q y =>
            obtain ⟨_, hs, e, _⟩ := approve_ok hr
            exact no (by rw [hs]; rfl) (by rw [e]; rfl)
          | transferFrom src dst y =>
            obtain ⟨v, t, _, _, ht, hs, e, _⟩ := transferFrom_ok hr
            exact tr _ _ _ t ht (by rw [hs]; rfl) e
        · rw [h2]
          exact ⟨[], (List.append_nil _).symm, hm, hl, (add_zero _).symm⟩
      obtain ⟨l1, e1, hm1, hl1, b1⟩ := step
      obtain ⟨l2, e2, b2⟩ := ih (next w (.call m k)) hm1 hl1
      refine ⟨l1 ++ l2, ?_, ?_⟩
      · show (exec (next w (.call m k)) (calls ks)).logs = _
        rw [e2, e1, List.append_assoc]
      · show ((abs (exec (next w (.call m k)) (calls ks)).st a).bal x : Int) = _
        rw [b2, b1, logsOf_append, net_append, add_assoc]
  exact gen ks w hm hl

example : net 7 (logsOf 101 (exec w1 (calls [(msg 101 6, .transferFrom 5 7 30), (msg 101 7, .transfer 8 10)])).logs) = 20 := by
  decide +kernel

/-- **C199 (refuted in full)**: tokens come, move and go without a log when it is not through the contract. -/
theorem C199_balance_refuted : ∃ w, Reach w ∧ (w.st.asset 101).min = 1 ∧ (∀ x, (w.st.asset 101).lock x = 0) ∧
    w.logs = [] ∧ (abs w.st 101).bal 5 = 70 ∧ (abs w.st 101).bal 6 = 20 ∧ (abs w.st 101).supply = 90 :=
  ⟨exec ⟨x0, []⟩ [.create 101 none, .mint 101 5 100, .pay 101 5 6 30, .burn 101 6 10],
    exec_reach _ (.start x0_genesis), by decide +kernel, fun _ => rfl, by decide +kernel, by decide +kernel,
    by decide +kernel, by decide +kernel⟩

/-! ## Static calls and XRP -/

/-- **C191** for assets: a static call changes nothing and logs nothing, and no call that comes with XRP succeeds, so that
the contract gets none. -/
theorem C191_erc20 {s s' : St} {m : Msg} {k : Call} {l : List Log} {o : Out} (h : execute s m k = .ok (s', l, o)) :
    m.value = 0 ∧ (m.static = true → s' = s ∧ l = []) := by
  obtain ⟨_, h2, h3, hr⟩ := execute_asset h
  refine ⟨h3, fun hs => ?_⟩
  have hv := h2.resolve_left (by rw [hs]; decide)
  cases k with
  | totalSupply => cases hr; exact ⟨rfl, rfl⟩
  | balanceOf _ => cases hr; exact ⟨rfl, rfl⟩
  | allowance _ _ => cases hr; exact ⟨rfl, rfl⟩
  | transfer _ _ => cases hv
  | approve _ _ => cases hv
  | transferFrom _ _ _ => cases hv

example : (execute w1.st { msg 101 5 with static := true } (.balanceOf 5)).isOk = true := by decide +kernel

end Verif.Evm20
