import Verif.Entry.Props2

/-!
# C134: nobody acts as another account

Specification used here: `Acts` (Entry/Lemmas.lean) and `Callers`, the contracts that make calls of their own
while the transaction runs.
-/

namespace Verif.Entry

/-- The accounts under which the EVM code started by a call makes calls of its own. In the EVM such a caller
is the contract whose code runs. -/
def Callers : Call → Acct → Prop
  | .evmCall _ _ _ subs, a => ∃ x ∈ subs, x.caller = a
  | .sudoCall x, a => Callers x a
  | .sudoAs _ x, a => Callers x a
  | .proxy _ x, a => Callers x a
  | .feeProxy _ x, a => Callers x a
  | .batch _ x y, a => Callers x a ∨ Callers y a
  | _, _ => False

/-- The same for a transaction. -/
def OpCallers : Op → Acct → Prop
  | .signed _ _ _ x, a => Callers x a
  | .ethereum _ _ _ _ subs, a => ∃ x ∈ subs, x.caller = a
  | .xrpl _ _ x, a => Callers x a
  | .doughnut _ _ _ _ _ x, a => Callers x a
  | _, _ => False

/-- Whatever ran, it ran under an account that `w` can act as, or under one of the contracts `K`. -/
def RanAs (dl : Acct → Acct → Bool) (w : Acct) (K : Acct → Prop) (e : Ran) : Prop :=
  ∃ a, e.origin = .signed a ∧ (Acts dl w a ∨ K a)

theorem RanAs.mono {dl : Acct → Acct → Bool} {w : Acct} {K L : Acct → Prop} (h : ∀ a, K a → L a) {e : Ran}
    (he : RanAs dl w K e) : RanAs dl w L e := by
  obtain ⟨a, h1, h2⟩ := he
  exact ⟨a, h1, h2.imp id (h a)⟩

theorem evm_as {c : Cfg} {w src t i : Acct} {v : Via} {subs : List Sub} {s s1 : St}
    {dl : Acct → Acct → Bool} (hs : Acts dl w src) (h : evmRun c s v src t i subs = .ok s1) :
    Since s s1 (RanAs dl w (fun a => ∃ x ∈ subs, x.caller = a)) := by
  obtain ⟨_, h⟩ := evmRun_ok h
  obtain ⟨_, _, _, _, hi⟩ := runSubs_ok h
  refine Since.trans (Since.one rfl ⟨src, rfl, .inl hs⟩) (hi.mono ?_)
  rintro e ⟨_, _, x, hx, ho, _⟩
  exact ⟨x.caller, ho, .inr ⟨x, hx, rfl⟩⟩

theorem run_as {c : Cfg} {v : Via} {w : Acct} {x : Call} :
    ∀ {b : Acct} {s s1 : St}, run c v x (.signed b) s = .ok s1 → Acts s.delegate w b →
      ¬ Acts s.delegate w s.sudoKey → Since s s1 (RanAs s.delegate w (Callers x)) := by
  have lf : ∀ {b : Acct} {s s1 : St} {y : Call} {K : Acct → Prop} {ok : Bool},
      leaf s v (.signed b) y ok = .ok s1 → Acts s.delegate w b →
      Since s s1 (RanAs s.delegate w K) := by
    intro b s s1 y K ok h hb
    rw [leaf_ok h]
    exact Since.one rfl ⟨b, rfl, .inl hb⟩
  have gate : ∀ {b : Acct} {s s1 : St} {y : Call},
      (∀ {b : Acct} {s s1 : St}, run c v y (.signed b) s = .ok s1 → Acts s.delegate w b →
        ¬ Acts s.delegate w s.sudoKey → Since s s1 (RanAs s.delegate w (Callers y))) →
      (if admitted s (.signed b) y = true then run c v y (.signed b) s else .error "CallFiltered") = .ok s1 →
      Acts s.delegate w b → ¬ Acts s.delegate w s.sudoKey →
      Since s s1 (RanAs s.delegate w (Callers y)) ∧ s1.delegate = s.delegate ∧ s1.sudoKey = s.sudoKey := by
    intro b s s1 y hy h hb hn
    by_cases ha : admitted s (.signed b) y = true
    · rw [if_pos ha] at h
      have hf := (run_frame h).1
      exact ⟨hy h hb hn, hf.delegate, hf.sudoKey⟩
    · rw [if_neg ha] at h; exact absurd h (by simp)
  induction x with
  | other p f ok => intro b s s1 h hb _; exact lf h hb
  | bond k ok => intro b s s1 h hb _; exact lf h hb
  | transfer k d x ok =>
    intro b s s1 h hb _
    simp only [run, bind_ok] at h
    obtain ⟨_, _, h⟩ := h
    exact lf h hb
  | assetTransfer i d x k ok =>
    intro b s s1 h hb _
    simp only [run, bind_ok] at h
    obtain ⟨_, _, h⟩ := h
    exact lf h hb
  | fpCreate a ok =>
    intro b s s1 h hb _
    simp only [run, bind_ok] at h
    obtain ⟨_, _, h⟩ := h
    exact lf h hb
  | remark l => intro b s s1 h hb _; exact lf h hb
  | maint m =>
    intro b s s1 h
    simp only [run, bind_ok, ensureRoot_ok] at h
    obtain ⟨_, h1, _⟩ := h
    exact absurd h1 (by simp)
  | revokeDoughnut p r =>
    intro b s s1 h hb _
    simp only [run, revokeDoughnut, bind_ok, pure_ok, signer_ok, ensure_ok, okOr_ok, Origin.signed.injEq] at h
    obtain ⟨_, rfl, s2, ⟨i, hi, _, he, h2⟩, h⟩ := h
    subst h
    refine Since.one (s1 := s2) ?_ ⟨b, rfl, .inl hb⟩
    subst h2; rfl
  | revokeHolder a r =>
    intro b s s1 h hb _
    simp only [run, bind_ok, pure_ok, signer_ok, Origin.signed.injEq] at h
    obtain ⟨_, rfl, h⟩ := h
    subst h
    exact Since.one rfl ⟨b, rfl, .inl hb⟩
  | whitelist a r =>
    intro b s s1 h
    simp only [run, bind_ok, ensureRoot_ok] at h
    obtain ⟨_, h1, _⟩ := h
    exact absurd h1 (by simp)
  | evmCall src t i subs =>
    intro b s s1 h hb _
    simp only [run, bind_ok, signer_ok, ensure_ok, Origin.signed.injEq] at h
    obtain ⟨_, rfl, _, rfl, h⟩ := h
    exact evm_as hb h
  | xrplTransact => intro b s s1 h; simp [run] at h
  | doughnutTransact => intro b s s1 h; simp [run] at h
  | sudoCall y ih =>
    intro b s s1 h hb hn
    simp only [run, bind_ok, signer_ok, ensure_ok, Origin.signed.injEq] at h
    obtain ⟨_, rfl, _, rfl, _⟩ := h
    exact absurd hb hn
  | sudoAs a y ih =>
    intro b s s1 h hb hn
    simp only [run, bind_ok, signer_ok, ensure_ok, Origin.signed.injEq] at h
    obtain ⟨_, rfl, _, rfl, _⟩ := h
    exact absurd hb hn
  | proxy fp y ih =>
    intro b s s1 h hb hn
    simp only [run, bind_ok, signer_ok, ensure_ok, Origin.signed.injEq] at h
    obtain ⟨_, rfl, _, _, _, _, _, hd, h⟩ := h
    have hfp : Acts s.delegate w fp := .via hb hd
    split at h
    · rename_i s2 h2
      simp only [Except.ok.injEq] at h
      subst h
      exact (gate ih h2 hfp hn).1
    · simp only [Except.ok.injEq] at h
      subst h
      exact Since.refl _ _
  | feeProxy xrp y ih =>
    intro b s s1 h hb hn
    simp only [run, bind_ok, ensure_ok] at h
    obtain ⟨_, _, _, _, _, _, _, ha, h⟩ := h
    exact ih h hb hn
  | batch all y z ihy ihz =>
    intro b s s1 h hb hn
    simp only [run] at h
    split at h
    · split at h
      · simp at h
      · simp only [Except.ok.injEq] at h; subst h; exact Since.refl _ _
    · rename_i s2 h2
      obtain ⟨e2, hd, hk⟩ := gate ihy h2 hb hn
      have e2 : Since s s2 (RanAs s.delegate w (Callers (.batch all y z))) :=
        e2.mono fun _ he => he.mono fun _ => .inl
      split at h
      · split at h
        · simp at h
        · simp only [Except.ok.injEq] at h; subst h; exact e2
      · rename_i s3 h3
        simp only [Except.ok.injEq] at h
        subst h
        have e3 := (gate ihz h3 (hd.symm ▸ hb) (by rw [hd, hk]; exact hn)).1
        rw [hd] at e3
        exact e2.trans (e3.mono fun _ he => he.mono fun _ => .inr)

theorem dispatch_as {c : Cfg} {v : Via} {w b : Acct} {x : Call} {s s1 : St}
    (h : dispatch c v x (.signed b) s = .ok s1) (hb : Acts s.delegate w b)
    (hn : ¬ Acts s.delegate w s.sudoKey) : Since s s1 (RanAs s.delegate w (Callers x)) := by
  simp only [dispatch, bind_ok, ensure_ok] at h
  obtain ⟨_, _, h⟩ := h
  exact run_as h hb hn

theorem settle_as {r : Except Err St} {s : St} {P : Ran → Prop} (h : ∀ s1, r = .ok s1 → Since s s1 P) :
    Since s (settle r s) P := by
  rcases settle_cases r s with h1 | h1
  · exact h _ h1
  · rw [h1]; exact Since.refl _ _

theorem Since.start {s s0 s1 : St} {P : Ran → Prop} (h : Since s0 s1 P) (hl : s0.log = s.log) :
    Since s s1 P := by
  obtain ⟨l, e, p⟩ := h
  exact ⟨l, by rw [e, hl], p⟩

/-- **C134.** Whatever a user's transaction makes run (calls, EVM code, precompiles) runs under an account
the user can act as, or under a contract that the transaction's own EVM code has reached. Nothing runs as
root. -/
theorem C134_acts {c : Cfg} {s s1 : St} {op : Op} {w : Acct} (hw : ByUser c s op w)
    (h : step c s op = .ok s1) :
    ∃ l, s1.log = l ++ s.log ∧
      ∀ e ∈ l, ∃ a, e.origin = .signed a ∧ (Acts s.delegate w a ∨ OpCallers op a) := by
  show Since s s1 (RanAs s.delegate w (OpCallers op))
  obtain ⟨hw, hn⟩ := hw
  cases op with
  | signed who n tip x =>
    cases hw
    obtain ⟨_, _, _, _, rfl⟩ := signedTx_ok h
    exact Since.start (settle_as fun s2 h2 => dispatch_as h2 .self hn) rfl
  | ethereum src n t i l =>
    cases hw
    obtain ⟨_, _, rfl⟩ := ethereumTx_ok h
    exact Since.start (settle_as fun s2 h2 => evm_as .self h2) rfl
  | xrpl m sig x =>
    obtain ⟨a, _, _, _, ha, _, _, _, _, _, _, rfl⟩ := xrplTx_ok h
    refine Since.start (settle_as fun s2 h2 => ?_) rfl
    obtain ⟨_, _, a', ha', h2⟩ := xTransact_ok h2
    rw [sender, ha'] at hw
    cases hw
    exact dispatch_as h2 .self hn
  | doughnut p n g tip sig x =>
    obtain ⟨_, _, _, _, _, _, _, _, _, _, _, rfl⟩ := doughnutTx_ok h
    refine Since.start (settle_as fun s2 h2 => ?_) rfl
    obtain ⟨_, _, iss, _, _, hi, _, _, _, _, _, _, _, rfl⟩ := dTransact_ok h2
    rw [sender, hi] at hw
    cases hw
    exact settle_as fun s3 h3 => dispatch_as h3 .self hn
  | nextBlock => cases hw
  | setFunds a x => cases hw
  | reap a => cases hw
  | fpNew a fp => cases hw
  | fpMove fp b => cases hw
  | setDelegate fp d b => cases hw

/-- In particular `EVM::call` naming somebody else as the source runs nothing at all. -/
theorem C134_source {c : Cfg} {s s1 : St} {who src t i : Acct} {n tip : Nat} {subs : List Sub}
    (hne : who ≠ src) (h : step c s (.signed who n tip (.evmCall src t i subs)) = .ok s1) :
    s1.log = s.log := by
  obtain ⟨_, _, _, _, rfl⟩ := signedTx_ok h
  rcases settle_cases (dispatch c .signed (.evmCall src t i subs) (.signed who)
    (_ : St)) _ with h1 | h1
  · simp only [dispatch, run, bind_ok, ensure_ok, signer_ok, Origin.signed.injEq] at h1
    obtain ⟨_, _, _, rfl, _, h2, _⟩ := h1
    exact absurd h2 hne
  · rw [h1]; rfl

/-- A user calls a contract (21) both for themselves and, through their futurepass (77), for the futurepass: EVM code
runs under the user and under the futurepass. -/
example :
    let call (a : Acct) : Call := .evmCall a 21 0 []
    let tx : Op := .signed 13 0 0 (.batch false (call 13) (.proxy 77 (call 77)))
    let s0 := exec Demo.cfg Demo.s0 [.fpNew 13 77]
    ByUser Demo.cfg s0 tx 13 ∧
    (exec Demo.cfg s0 [tx]).log.map Ran.origin = [.signed 77, .signed 13] ++ s0.log.map Ran.origin := by
  refine ⟨⟨rfl, ?_⟩, ?_⟩
  · intro ha
    have hk : (exec Demo.cfg Demo.s0 [.fpNew 13 77]).sudoKey = 1 := by decide +kernel
    rw [hk] at ha
    cases ha with
    | via _ hd =>
      have hne : (1 : Acct) ≠ 77 := by decide
      have e : (exec Demo.cfg Demo.s0 [.fpNew 13 77]).delegate 1 = fun _ => false := by
        have : (exec Demo.cfg Demo.s0 [.fpNew 13 77]).delegate =
          upd (fun _ _ => false) 77 (upd (fun _ => false) 13 true) := rfl
        rw [this, upd_ne _ _ hne]
      rw [e] at hd
      cases hd
  · decide +kernel

end Verif.Entry
