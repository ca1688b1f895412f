import Verif.Entry.Model

/-!
# What running a call can do

`Since s s1 P`: the log of `s1` is that of `s` with new entries in front, all satisfying `P`.
`Acts dl w a`: `w` can act as `a` through a chain of futurepasses.
-/

namespace Verif.Entry

/-- The log grew by entries satisfying `P`. -/
def Since (s s1 : St) (P : Ran → Prop) : Prop := ∃ l, s1.log = l ++ s.log ∧ ∀ e ∈ l, P e

theorem Since.refl (s : St) (P : Ran → Prop) : Since s s P := ⟨[], rfl, by simp⟩

theorem Since.of_log {s s1 : St} {P : Ran → Prop} (h : s1.log = s.log) : Since s s1 P :=
  ⟨[], by simp [h], by simp⟩

theorem Since.trans {s s1 s2 : St} {P : Ran → Prop} (h1 : Since s s1 P) (h2 : Since s1 s2 P) :
    Since s s2 P := by
  obtain ⟨l1, e1, p1⟩ := h1
  obtain ⟨l2, e2, p2⟩ := h2
  refine ⟨l2 ++ l1, by rw [e2, e1, List.append_assoc], ?_⟩
  intro e he
  rcases List.mem_append.mp he with h | h
  · exact p2 e h
  · exact p1 e h

theorem Since.mono {s s1 : St} {P Q : Ran → Prop} (h : Since s s1 P) (hpq : ∀ e, P e → Q e) :
    Since s s1 Q := by
  obtain ⟨l, e, p⟩ := h
  exact ⟨l, e, fun x hx => hpq x (p x hx)⟩

theorem Since.one {s s1 : St} {P : Ran → Prop} {v : Via} {o : Origin} {a : Act} {b : Bool}
    (hl : s1.log = s.log)
    (h : P { via := v, origin := o, act := a, paused := b, maint := s1.active }) :
    Since s (ran s1 v o a b) P :=
  ⟨[{ via := v, origin := o, act := a, paused := b, maint := s1.active }], by simp [ran, hl], by simpa using h⟩

/-- What no call touches. -/
structure Frame (s s1 : St) : Prop where
  block : s1.block = s.block
  nonce : s1.nonce = s.nonce
  funds : s1.funds = s.funds
  holder : s1.holder = s.holder
  owner : s1.owner = s.owner
  delegate : s1.delegate = s.delegate
  sudoKey : s1.sudoKey = s.sudoKey

theorem Frame.refl (s : St) : Frame s s := ⟨rfl, rfl, rfl, rfl, rfl, rfl, rfl⟩

theorem Frame.trans {s s1 s2 : St} (h : Frame s s1) (k : Frame s1 s2) : Frame s s2 :=
  ⟨k.block.trans h.block, k.nonce.trans h.nonce, k.funds.trans h.funds, k.holder.trans h.holder,
    k.owner.trans h.owner, k.delegate.trans h.delegate, k.sudoKey.trans h.sudoKey⟩

/-- The operators' switches. -/
structure Tables (s s1 : St) : Prop where
  active : s1.active = s.active
  blockedAcct : s1.blockedAcct = s.blockedAcct
  blockedEvm : s1.blockedEvm = s.blockedEvm
  blockedCall : s1.blockedCall = s.blockedCall
  blockedPallet : s1.blockedPallet = s.blockedPallet
  white : s1.white = s.white

theorem Tables.refl (s : St) : Tables s s := ⟨rfl, rfl, rfl, rfl, rfl, rfl⟩

theorem Tables.trans {s s1 s2 : St} (h : Tables s s1) (k : Tables s1 s2) : Tables s s2 :=
  ⟨k.active.trans h.active, k.blockedAcct.trans h.blockedAcct, k.blockedEvm.trans h.blockedEvm,
    k.blockedCall.trans h.blockedCall, k.blockedPallet.trans h.blockedPallet, k.white.trans h.white⟩

/-- `w` can act as `a`: it is `a`, or a delegate of `a`, or can act as a delegate of `a`. -/
inductive Acts (dl : Acct → Acct → Bool) (w : Acct) : Acct → Prop
  | self : Acts dl w w
  | via {b fp : Acct} : Acts dl w b → dl fp b = true → Acts dl w fp

theorem signer_ok {o : Origin} {a : Acct} : signer o = .ok a ↔ o = .signed a := by
  cases o <;> simp [signer]

theorem ensureRoot_ok {o : Origin} {u : Unit} : ensureRoot o = .ok u ↔ o = .root := by
  simp [ensureRoot]

theorem leaf_ok {s s1 : St} {v : Via} {o : Origin} {x : Call} {ok : Bool}
    (h : leaf s v o x ok = .ok s1) : s1 = ran s v o (.call x) (paused s x) := by
  simp only [leaf, bind_ok, ensure_ok, pure_ok] at h
  obtain ⟨_, _, h⟩ := h
  exact h.symm

theorem ran_frame (s : St) (v : Via) (o : Origin) (a : Act) (b : Bool) : Frame s (ran s v o a b) :=
  ⟨rfl, rfl, rfl, rfl, rfl, rfl, rfl⟩

theorem ran_tables (s : St) (v : Via) (o : Origin) (a : Act) (b : Bool) : Tables s (ran s v o a b) :=
  ⟨rfl, rfl, rfl, rfl, rfl, rfl⟩

/-- What the calls of EVM code leave alone and what they log. -/
theorem runSubs_ok {v : Via} {l : List Sub} :
    ∀ {s s1 : St}, runSubs v l s = .ok s1 →
      Frame s s1 ∧ Tables s s1 ∧ s1.revoked = s.revoked ∧ s1.revokedHolder = s.revokedHolder ∧
      Since s s1 (fun e => e.via = v ∧ e.maint = s.active ∧ (∃ x ∈ l, e.origin = .signed x.caller ∧
        ((e.act = .evm x.target ∧ e.paused = false) ∨
          ∃ p f, x.precompile = some (p, f) ∧ e.act = .pre p f x.direct ∧
            (x.direct = true ∨ (pausedName s p f = false ∧ disabledName p f = false))))) := by
  induction l with
  | nil =>
    intro s s1 h
    simp only [runSubs, Except.ok.injEq] at h
    subst h
    exact ⟨Frame.refl _, Tables.refl _, rfl, rfl, Since.refl _ _⟩
  | cons x l ih =>
    intro s s1 h
    cases hp : x.precompile with
    | none =>
      simp only [runSubs, hp] at h
      obtain ⟨f1, t1, r1, r2, i1⟩ := ih h
      refine ⟨(ran_frame s v _ _ _).trans f1, (ran_tables s v _ _ _).trans t1, r1, r2, ?_⟩
      refine Since.trans (s1 := ran s v (.signed x.caller) (.evm x.target) false) ?_ ?_
      · apply Since.one rfl
        exact ⟨rfl, rfl, x, List.mem_cons_self, rfl, .inl ⟨rfl, rfl⟩⟩
      · apply i1.mono
        rintro e ⟨h1, h2, y, hy, h3⟩
        exact ⟨h1, h2, y, List.mem_cons_of_mem _ hy, h3⟩
    | some pf =>
      obtain ⟨p, f⟩ := pf
      simp only [runSubs, hp, bind_ok, ensure_ok] at h
      obtain ⟨_, hc, h⟩ := h
      obtain ⟨f1, t1, r1, r2, i1⟩ := ih h
      refine ⟨((ran_frame s v _ _ _).trans (ran_frame _ v _ _ _)).trans f1,
        ((ran_tables s v _ _ _).trans (ran_tables _ v _ _ _)).trans t1, r1, r2, ?_⟩
      refine Since.trans (s1 := ran s v (.signed x.caller) (.evm x.target) false) ?_ ?_
      · apply Since.one rfl
        exact ⟨rfl, rfl, x, List.mem_cons_self, rfl, .inl ⟨rfl, rfl⟩⟩
      · refine Since.trans (Since.one (P := _) (v := v) (o := .signed x.caller) (a := .pre p f x.direct)
          (b := pausedName s p f) (s1 := ran s v (.signed x.caller) (.evm x.target) false) rfl ?_) ?_
        · exact ⟨rfl, rfl, x, List.mem_cons_self, rfl, .inr ⟨p, f, hp, rfl, hc⟩⟩
        · apply i1.mono
          rintro e ⟨h1, h2, y, hy, h3⟩
          exact ⟨h1, h2, y, List.mem_cons_of_mem _ hy, h3⟩

/-- An EVM call that runs. -/
theorem evmRun_ok {c : Cfg} {s s1 : St} {v : Via} {src t i : Acct} {subs : List Sub}
    (h : evmRun c s v src t i subs = .ok s1) :
    evmAllowed s src t = true ∧
      runSubs v subs (ran s v (.signed src) (.evm (if t = c.feeProxyAddr then i else t)) false) = .ok s1 := by
  simp only [evmRun, bind_ok, ensure_ok] at h
  obtain ⟨_, h1, h⟩ := h
  exact ⟨h1, h⟩

theorem evmAllowed_spec {s : St} {a t : Acct} (h : evmAllowed s a t = true) :
    s.active = false ∧ s.blockedAcct a = false ∧ s.blockedEvm t = false := by
  unfold evmAllowed at h
  split at h
  · simp at h
  · split at h
    · simp at h
    · split at h
      · simp at h
      · simp_all

/-- An entry of this kind of transaction; only calls run during maintenance. -/
def Kind (v : Via) (e : Ran) : Prop := e.via = v ∧ ((∃ y, e.act = .call y) ∨ e.maint = false)

/-- EVM code runs only outside maintenance. -/
theorem evmRun_kind {c : Cfg} {s s1 : St} {v : Via} {src t i : Acct} {l : List Sub}
    (h : evmRun c s v src t i l = .ok s1) : Frame s s1 ∧ Since s s1 (Kind v) := by
  obtain ⟨ha, h⟩ := evmRun_ok h
  obtain ⟨hf, _, _, _, hi⟩ := runSubs_ok h
  have hm := (evmAllowed_spec ha).1
  refine ⟨(ran_frame s v _ _ _).trans hf, Since.trans (Since.one rfl ⟨rfl, .inr hm⟩) (hi.mono ?_)⟩
  intro e he
  exact ⟨he.1, .inr (he.2.1.trans hm)⟩

/-- The maintenance calls touch only the operators' switches. -/
theorem maintOp_ok {c : Cfg} {s s1 : St} {m : MOp} (h : maintOp c s m = .ok s1) :
    Frame s s1 ∧ s1.log = s.log ∧ s1.revoked = s.revoked ∧ s1.revokedHolder = s.revokedHolder ∧
      s1.white = s.white := by
  cases m <;> simp only [maintOp, bind_ok, ensure_ok, pure_ok, Except.ok.injEq] at h
  case enable on => subst h; exact ⟨⟨rfl, rfl, rfl, rfl, rfl, rfl, rfl⟩, rfl, rfl, rfl, rfl⟩
  case account a b => subst h; exact ⟨⟨rfl, rfl, rfl, rfl, rfl, rfl, rfl⟩, rfl, rfl, rfl, rfl⟩
  case evm a b => subst h; exact ⟨⟨rfl, rfl, rfl, rfl, rfl, rfl, rfl⟩, rfl, rfl, rfl, rfl⟩
  case call p f b =>
    obtain ⟨_, _, _, _, _, _, _, _, _, _, h⟩ := h
    subst h; exact ⟨⟨rfl, rfl, rfl, rfl, rfl, rfl, rfl⟩, rfl, rfl, rfl, rfl⟩
  case pallet p b =>
    obtain ⟨_, _, _, _, _, _, h⟩ := h
    subst h; exact ⟨⟨rfl, rfl, rfl, rfl, rfl, rfl, rfl⟩, rfl, rfl, rfl, rfl⟩

/-- Calls never touch nonces, funds or futurepass tables, and log only entries of their own kind. -/
theorem run_frame {c : Cfg} {v : Via} {x : Call} :
    ∀ {o : Origin} {s s1 : St}, run c v x o s = .ok s1 → Frame s s1 ∧ Since s s1 (Kind v) := by
  have one : ∀ {s s1 : St} {o : Origin} {y : Call} {b : Bool}, Frame s s1 → s1.log = s.log →
      Frame s (ran s1 v o (.call y) b) ∧ Since s (ran s1 v o (.call y) b) (Kind v) :=
    fun hf hl => ⟨hf.trans (ran_frame _ _ _ _ _), Since.one hl ⟨rfl, .inl ⟨_, rfl⟩⟩⟩
  have lf : ∀ {o : Origin} {s s1 : St} {y : Call} {ok : Bool}, leaf s v o y ok = .ok s1 →
      Frame s s1 ∧ Since s s1 (Kind v) := by
    intro o s s1 y ok h
    rw [leaf_ok h]
    exact one (Frame.refl _) rfl
  have cat : ∀ {s s1 : St} {r : Except Err St},
      (∀ s2, r = .ok s2 → Frame s s2 ∧ Since s s2 (Kind v)) →
      (match r with | .ok s2 => (.ok s2 : Except Err St) | .error _ => .ok s) = .ok s1 →
      Frame s s1 ∧ Since s s1 (Kind v) := by
    intro s s1 r hr h
    cases r with
    | ok s2 => simp only [Except.ok.injEq] at h; subst h; exact hr _ rfl
    | error e => simp only [Except.ok.injEq] at h; subst h; exact ⟨Frame.refl _, Since.refl _ _⟩
  have gate : ∀ {s s1 : St} {o : Origin} {y : Call},
      (∀ {o : Origin} {s s1 : St}, run c v y o s = .ok s1 → Frame s s1 ∧ Since s s1 (Kind v)) →
      (if admitted s o y = true then run c v y o s else .error "CallFiltered") = .ok s1 →
      Frame s s1 ∧ Since s s1 (Kind v) := by
    intro s s1 o y hy h
    by_cases ha : admitted s o y = true
    · rw [if_pos ha] at h; exact hy h
    · rw [if_neg ha] at h; exact absurd h (by simp)
  induction x with
  | other p f ok => intro o s s1 h; exact lf h
  | bond k ok => intro o s s1 h; exact lf h
  | transfer k d x ok =>
    intro o s s1 h
    simp only [run, bind_ok] at h
    obtain ⟨_, _, h⟩ := h
    exact lf h
  | assetTransfer i d x k ok =>
    intro o s s1 h
    simp only [run, bind_ok] at h
    obtain ⟨_, _, h⟩ := h
    exact lf h
  | fpCreate a ok =>
    intro o s s1 h
    simp only [run, bind_ok] at h
    obtain ⟨_, _, h⟩ := h
    exact lf h
  | remark b => intro o s s1 h; exact lf h
  | maint m =>
    intro o s s1 h
    simp only [run, bind_ok, pure_ok] at h
    obtain ⟨_, _, s2, h2, h⟩ := h
    subst h
    obtain ⟨hf, hl, _⟩ := maintOp_ok h2
    exact one hf hl
  | revokeDoughnut p r =>
    intro o s s1 h
    simp only [run, revokeDoughnut, bind_ok, pure_ok] at h
    obtain ⟨_, _, s2, ⟨_, _, _, _, h2⟩, h⟩ := h
    subst h; subst h2
    exact one ⟨rfl, rfl, rfl, rfl, rfl, rfl, rfl⟩ rfl
  | revokeHolder a r =>
    intro o s s1 h
    simp only [run, bind_ok, pure_ok] at h
    obtain ⟨_, _, h⟩ := h
    subst h
    exact one ⟨rfl, rfl, rfl, rfl, rfl, rfl, rfl⟩ rfl
  | whitelist a r =>
    intro o s s1 h
    simp only [run, bind_ok, pure_ok] at h
    obtain ⟨_, _, h⟩ := h
    subst h
    exact one ⟨rfl, rfl, rfl, rfl, rfl, rfl, rfl⟩ rfl
  | evmCall src t i subs =>
    intro o s s1 h
    simp only [run, bind_ok] at h
    obtain ⟨_, _, _, _, h⟩ := h
    exact evmRun_kind h
  | xrplTransact => intro o s s1 h; simp [run] at h
  | doughnutTransact => intro o s s1 h; simp [run] at h
  | sudoCall y ih =>
    intro o s s1 h
    simp only [run, bind_ok] at h
    obtain ⟨_, _, _, _, h⟩ := h
    exact cat (fun s2 h2 => ih h2) h
  | sudoAs a y ih =>
    intro o s s1 h
    simp only [run, bind_ok] at h
    obtain ⟨_, _, _, _, h⟩ := h
    exact cat (fun s2 h2 => ih h2) h
  | proxy fp y ih =>
    intro o s s1 h
    simp only [run, bind_ok] at h
    obtain ⟨_, _, _, _, _, _, _, _, h⟩ := h
    exact cat (fun s2 h2 => gate ih h2) h
  | feeProxy xrp y ih =>
    intro o s s1 h
    simp only [run, bind_ok] at h
    obtain ⟨_, _, _, _, _, _, _, _, h⟩ := h
    exact ih h
  | batch all y z ihy ihz =>
    intro o s s1 h
    simp only [run] at h
    split at h
    · split at h
      · simp at h
      · simp only [Except.ok.injEq] at h; subst h; exact ⟨Frame.refl _, Since.refl _ _⟩
    · rename_i s2 h2
      obtain ⟨f2, i2⟩ := gate ihy h2
      split at h
      · split at h
        · simp at h
        · simp only [Except.ok.injEq] at h; subst h; exact ⟨f2, i2⟩
      · rename_i s3 h3
        simp only [Except.ok.injEq] at h
        subst h
        obtain ⟨f3, i3⟩ := gate ihz h3
        exact ⟨f2.trans f3, i2.trans i3⟩

end Verif.Entry
