import Verif.EthyProof.Props

/-!
# C239: root's pause of the bridge and the number of delayed requests per block take effect and stay
-/

namespace Verif.EthyProof

/-- Run a list of operations; rejected ones change nothing. -/
def exec (c : Cfg) (s : St) : List Op → St
  | [] => s
  | op :: ops => exec c ((step c s op).toOption.getD s) ops

/-- What root decides: whether the bridge is paused, and how many delayed requests are taken up in a block. -/
structure Settings where
  paused : Bool
  perBlock : Nat
deriving DecidableEq

/-- Root's word. -/
def said (k : Settings) : Op → Settings
  | .setPaused b => { k with paused := b }
  | .setPerBlock n => { k with perBlock := n }
  | _ => k

/-- What is in force. -/
def inForce (s : St) : Settings := ⟨s.manual, s.perBlock⟩

theorem doRequest_force (s : St) (id : Nat) (r : Req) : inForce (doRequest s id r) = inForce s := by
  unfold doRequest
  split <;> rfl

theorem sendRaw_force (c : Cfg) (s : St) (mk : Req) (len : Nat) : inForce (sendRaw c s mk len).1 = inForce s := by
  unfold sendRaw
  dsimp only
  split
  · exact (doRequest_force (takeId s) s.nextId mk)
  · rfl

theorem hooks_force (c : Cfg) : ∀ (l : List (Nat × Nat)) (s : St),
    inForce (l.foldl (fun t m => sendHook c t (.xrpl m.1) m.2) s) = inForce s
  | [], _ => rfl
  | m :: l, s => (hooks_force c l _).trans (sendRaw_force c s _ _)

theorem requests_force : ∀ (l : List (Nat × Req)) (s : St),
    inForce (l.foldl (fun t p => doRequest t p.1 p.2) s) = inForce s
  | [], _ => rfl
  | p :: l, s => (requests_force l _).trans (doRequest_force s _ _)

theorem step_force {c : Cfg} {s s' : St} {op : Op} (h : step c s op = .ok s') : inForce s' = said (inForce s) op := by
  cases op with
  | send mk len =>
    simp only [step, send] at h
    split at h
    · cases h
      exact sendRaw_force ..
    · cases h
  | sendHook mk len =>
    cases h
    exact sendRaw_force ..
  | setPaused b =>
    cases h
    rfl
  | setPerBlock n =>
    cases h
    rfl
  | handleChange msg len xs =>
    cases h
    show inForce (handleChange c s msg len xs) = inForce s
    refine Eq.trans ?_ (sendRaw_force c s (.eth s.setId msg) len)
    exact hooks_force c xs (sendHook c s (.eth s.setId msg) len)
  | finalise =>
    cases h
    rfl
  | idle order budget =>
    simp only [step, idle, bind_ok] at h
    obtain ⟨_, _, h⟩ := h
    split at h
    · cases h
      rfl
    · cases h
      exact requests_force _ { s with pending := order.drop (min s.perBlock budget) }

/-- **C239 (outgoing bridge).** After any history, failing calls included, what is in force is what root said last. -/
theorem C239_out (c : Cfg) : ∀ (ops : List Op) (s : St), inForce (exec c s ops) = ops.foldl said (inForce s)
  | [], _ => rfl
  | op :: ops, s => by
    unfold exec
    rw [C239_out c ops, List.foldl_cons]
    cases h : step c s op with
    | ok s1 =>
      rw [← step_force h]
      rfl
    | error e =>
      cases op with
      | setPaused b => cases h
      | setPerBlock n => cases h
      | _ => rfl

theorem requests_sent : ∀ (l : List (Nat × Req)) (s : St),
    (l.foldl (fun t p => doRequest t p.1 p.2) s).sent.length ≤ s.sent.length + l.length
  | [], _ => Nat.le_refl _
  | p :: l, s => by
    have h := requests_sent l (doRequest s p.1 p.2)
    have h1 : (doRequest s p.1 p.2).sent.length ≤ s.sent.length + 1 := by
      unfold doRequest
      split
      · exact Nat.le_succ _
      · exact Nat.le_refl _
    simp only [List.foldl_cons, List.length_cons]
    omega

/-- **C239 (outgoing bridge).** While root's last word is to pause, nothing is given to the validators to sign, whatever
happens next. -/
theorem C239_out_paused {c : Cfg} {s s' : St} {ops : List Op} {op : Op}
    (hp : (ops.foldl said (inForce s)).paused = true) (h : step c (exec c s ops) op = .ok s') :
    s'.sent = (exec c s ops).sent := by
  rw [← C239_out c] at hp
  generalize exec c s ops = t at *
  have hp : t.manual = true := hp
  have pz : ∀ {u : St}, u.manual = true → paused u = true := by
    intro u h
    unfold paused
    rw [h]
    rfl
  have raw : ∀ {u : St} (mk : Req) (len : Nat), u.manual = true → (sendRaw c u mk len).1.sent = u.sent := by
    intro u mk len h
    unfold sendRaw
    dsimp only
    split
    · unfold doRequest
      rw [if_pos (pz (u := takeId u) h)]
      rfl
    · rfl
  cases op with
  | send mk len =>
    simp only [step, send] at h
    split at h
    · cases h
      exact raw mk len hp
    · cases h
  | sendHook mk len =>
    cases h
    exact raw mk len hp
  | setPaused b =>
    cases h
    rfl
  | setPerBlock n =>
    cases h
    rfl
  | handleChange msg len xs =>
    cases h
    have hooks : ∀ (l : List (Nat × Nat)) (u : St), u.manual = true →
        (l.foldl (fun t m => sendHook c t (.xrpl m.1) m.2) u).sent = u.sent := by
      intro l
      induction l with
      | nil => intro u _; rfl
      | cons m l ih =>
        intro u hu
        refine (ih _ ?_).trans (raw _ _ hu)
        exact (congrArg Settings.paused (sendRaw_force c u (.xrpl m.1) m.2)).trans hu
    show (xs.foldl (fun t m => sendHook c t (.xrpl m.1) m.2) (sendHook c t (.eth t.setId msg) len)).sent = t.sent
    refine (hooks xs _ ?_).trans (raw _ _ hp)
    exact (congrArg Settings.paused (sendRaw_force c t (.eth t.setId msg) len)).trans hp
  | finalise =>
    cases h
    rfl
  | idle order budget =>
    simp only [step, idle, bind_ok] at h
    obtain ⟨_, _, h⟩ := h
    rw [if_pos (pz hp)] at h
    cases h
    rfl

/-- **C239 (outgoing bridge).** A block takes up at most as many delayed requests as root said last. -/
theorem C239_out_perBlock {c : Cfg} {s s' : St} {ops : List Op} {order : List (Nat × Req)} {budget : Nat}
    (h : step c (exec c s ops) (.idle order budget) = .ok s') :
    s'.sent.length ≤ (exec c s ops).sent.length + (ops.foldl said (inForce s)).perBlock := by
  rw [← C239_out c]
  generalize exec c s ops = t at *
  simp only [step, idle, bind_ok] at h
  obtain ⟨_, _, h⟩ := h
  split at h
  · cases h
    exact Nat.le_add_right _ _
  · cases h
    have := requests_sent (order.take (min t.perBlock budget)) { t with pending := order.drop (min t.perBlock budget) }
    rw [List.length_take] at this
    show _ ≤ t.sent.length + t.perBlock
    dsimp only at this
    omega

/-- Root pauses, requests wait, root lets one of them through per block. -/
def pauseOps : List Op := [.setPaused true, .setPerBlock 1, .send (.eth 7 40) 10, .send (.xrpl 41) 20]

example : pauseOps.foldl said (inForce g0) = ⟨true, 1⟩ := by decide +kernel
example : (exec cfg0 g0 pauseOps).sent = [] ∧ (exec cfg0 g0 pauseOps).pending.length = 2 := by decide +kernel
example : ∃ s', step cfg0 (exec cfg0 g0 (pauseOps ++ [.setPaused false])) (.idle [(1, .xrpl 41), (0, .eth 7 40)] 5) = .ok s' ∧
    s'.sent.length = 1 := ⟨_, rfl, by decide +kernel⟩
example := C239_out_paused (c := cfg0) (s := g0) (ops := pauseOps) (op := .send (.xrpl 42) 20) (by decide +kernel) rfl

end Verif.EthyProof
