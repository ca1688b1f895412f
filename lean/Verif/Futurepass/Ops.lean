import Verif.Futurepass.Frames

/-! # Futurepass: effects of the calls -/

namespace Verif.Futurepass

theorem create_ok {c : Cfg} {s s' : St} {who acc : Acct} (h : create c s who acc = .ok s') :
    s.holder acc = none ∧ c.addr s.next ≠ acc ∧ s'.next = (s.next + 1) % U128 ∧
      s'.holder = upd s.holder acc (some (c.addr s.next)) ∧ s'.now = s.now ∧
      s'.events = .created (c.addr s.next) acc :: s.events ∧
      s'.proxies = upd s.proxies (c.addr s.next) (insertDef ⟨acc, .owner, 0⟩ (s.proxies (c.addr s.next))) ∧
      (⟨acc, .owner, 0⟩ : Def) ∉ s.proxies (c.addr s.next) ∧
      (∀ y, s'.free y + s'.reserved y + (if y = who then addCost c s (c.addr s.next) else 0) =
        s.free y + s.reserved y + (if y = c.addr s.next then addCost c s (c.addr s.next) else 0)) ∧
      (Books c s → Books c s') ∧ Keeps s s' := by
  unfold create at h
  simp only [bind_ok, ensure_ok, pure_ok] at h
  obtain ⟨_, h1, s1, ha, h⟩ := h
  subst h
  obtain ⟨⟨c1, c2, c3, c4⟩, hne, hni, _, hp, hm, hb, hk⟩ := addDelegate_ok ha
  dsimp only at c1 c2 c3 c4 hp hm hni
  refine ⟨h1, hne, c1, c2, c3, by dsimp only; rw [c4], hp, hni, hm, ?_, ?_⟩
  · intro b
    exact (hb (b.congr rfl rfl rfl rfl)).congr rfl rfl rfl rfl
  · exact ((Keeps.congr rfl rfl).trans hk).trans (Keeps.congr rfl rfl)

theorem register_ok {c : Cfg} {s s' : St} {who fp d : Acct} {ty : PType} {deadline sig : Nat}
    (h : register c s who fp d ty deadline sig = .ok s') :
    (who = fp ∨ s.holder who = some fp) ∧ ty = .any ∧ (∀ e ∈ s.proxies fp, e.who ≠ d) ∧ s.now ≤ deadline ∧
      c.recover sig (fp, d, ty, deadline) = some d ∧ fp ≠ d ∧
      s'.next = s.next ∧ s'.holder = s.holder ∧ s'.now = s.now ∧ s'.events = .registered fp d :: s.events ∧
      s'.proxies = upd s.proxies fp (insertDef ⟨d, ty, 0⟩ (s.proxies fp)) ∧
      (∀ y, s'.free y + s'.reserved y + (if y = who then addCost c s fp else 0) =
        s.free y + s.reserved y + (if y = fp then addCost c s fp else 0)) ∧
      (Books c s → Books c s') ∧ Keeps s s' := by
  unfold register at h
  simp only [bind_ok, ensure_ok, okOr_ok, pure_ok] at h
  obtain ⟨_, h1, _, _, _, h3, _, h4, _, h5, r, h6, _, h7, s1, ha, h⟩ := h
  subst h h7
  obtain ⟨⟨c1, c2, c3, c4⟩, hne, _, _, hp, hm, hb, hk⟩ := addDelegate_ok ha
  refine ⟨h1, h3, findProxy_none.mp h4, h5, h6, hne, c1, c2, c3, by dsimp only; rw [c4], hp, hm, ?_, ?_⟩
  · exact fun b => (hb b).congr rfl rfl rfl rfl
  · exact hk.trans (Keeps.congr rfl rfl)

theorem unregister_ok {c : Cfg} {s s' : St} {who fp d : Acct} (h : unregister c s who fp d = .ok s') :
    ∃ x, findProxy s fp d none = some x ∧ (⟨d, x.ty, 0⟩ : Def) ∈ s.proxies fp ∧ s.holder d ≠ some fp ∧
      (s.holder who = some fp ∨ who = fp ∨ who = d) ∧ s'.next = s.next ∧ s'.holder = s.holder ∧ s'.now = s.now ∧
      s'.events = .unregistered fp d :: s.events ∧
      s'.proxies = upd s.proxies fp ((s.proxies fp).erase ⟨d, x.ty, 0⟩) ∧
      (∀ y, s'.free y + s'.reserved y + (if y = fp then s.dep fp - s'.dep fp else 0) =
        s.free y + s.reserved y + (if y = who then s.dep fp - s'.dep fp else 0)) ∧
      s'.dep = upd s.dep fp (deposit c ((s.proxies fp).erase ⟨d, x.ty, 0⟩).length) ∧
      (Books c s → Books c s') ∧ Keeps s s' := by
  unfold unregister at h
  simp only [bind_ok, ensure_ok, pure_ok] at h
  obtain ⟨_, h1, _, h2, _, h3, s1, hr, h⟩ := h
  subst h
  obtain ⟨x, hx, hm, ⟨c1, c2, c3, c4⟩, hp, hm2, hd, hb, hk⟩ := removeDelegate_ok hr
  refine ⟨x, hx, hm, h1, h2, c1, c2, c3, by dsimp only; rw [c4], hp, hm2, hd, ?_, ?_⟩
  · exact fun b => (hb b).congr rfl rfl rfl rfl
  · exact hk.trans (Keeps.congr rfl rfl)

/-- Transfer to a new owner. -/
theorem transfer_some {c : Cfg} {s s' : St} {who cur n : Acct} (h : transfer c s who cur (some n) = .ok s') :
    ∃ fp, s.holder cur = some fp ∧ (who = cur ∨ fp = who) ∧ upd s.holder cur none n = none ∧ fp ≠ n ∧
      (⟨n, .owner, 0⟩ : Def) ∉ s.proxies fp ∧
      s'.next = s.next ∧ s'.holder = upd (upd s.holder cur none) n (some fp) ∧ s'.now = s.now ∧
      s'.events = .transferred cur (some n) fp :: s.events ∧
      (∀ a, a ≠ fp → s'.proxies a = s.proxies a) ∧
      (∀ d, d ∈ s'.proxies fp ↔ d.who = n ∧ (d = ⟨n, .owner, 0⟩ ∨ d ∈ s.proxies fp)) ∧
      (Books c s → Books c s') ∧ Keeps s s' := by
  unfold transfer at h
  simp only [bind_ok, ensure_ok, okOr_ok, pure_ok] at h
  obtain ⟨fp, h1, _, h2, s3, ⟨_, h3, s2, ha, s4, hr, h4⟩, h⟩ := h
  subst h h4
  obtain ⟨⟨c1, c2, c3, c4⟩, hne, hni, _, hp, _, hb, hk⟩ := addDelegate_ok ha
  obtain ⟨⟨d1, d2, d3, d4⟩, q1, q2, q3, q4⟩ := removeOthers_ok hr (fun _ _ => rfl)
  dsimp only at c1 c2 c3 c4 hp hni
  refine ⟨fp, h1, h2, h3, hne, hni, d1.trans c1, ?_, d3.trans c3, ?_, ?_, ?_, ?_, ?_⟩
  · dsimp only
    rw [d2, c2]
  · dsimp only
    rw [d4, c4]
  · intro a ha
    dsimp only
    rw [q1 a ha, hp, upd_ne _ _ ha]
  · intro d
    dsimp only
    rw [q2 d, hp, upd_same, mem_insertDef]
    constructor
    · exact fun h => ⟨h.2, h.1⟩
    · exact fun h => ⟨h.2, h.1⟩
  · intro b
    exact (q3 (hb (b.congr rfl rfl rfl rfl))).congr rfl rfl rfl rfl
  · exact ((Keeps.congr rfl rfl).trans (hk.trans q4)).trans (Keeps.congr rfl rfl)

/-- Giving a futurepass up. -/
theorem transfer_none {c : Cfg} {s s' : St} {who cur : Acct} (h : transfer c s who cur none = .ok s') :
    ∃ fp, s.holder cur = some fp ∧ (who = cur ∨ fp = who) ∧
      s'.next = s.next ∧ s'.holder = upd s.holder cur none ∧ s'.now = s.now ∧
      s'.events = .transferred cur none fp :: s.events ∧
      s'.proxies = upd s.proxies fp [] ∧ s'.dep = upd s.dep fp 0 ∧
      (∀ y, s'.free y + s'.reserved y + (if y = fp then s.dep fp else 0) =
        s.free y + s.reserved y + (if y = who then s.dep fp else 0)) ∧
      (Books c s → Books c s') ∧ Keeps s s' := by
  unfold transfer at h
  simp only [bind_ok, ensure_ok, okOr_ok, pure_ok] at h
  obtain ⟨fp, h1, _, h2, s3, hr, h⟩ := h
  subst h
  obtain ⟨⟨c1, c2, c3, c4⟩, hp, hd, hm, hb, hk⟩ := removeAccount_ok hr
  dsimp only at c1 c2 c3 c4 hp hd hm
  refine ⟨fp, h1, h2, c1, c2, c3, by dsimp only; rw [c4], hp, hd, hm, ?_, ?_⟩
  · exact fun b => (hb (b.congr rfl rfl rfl rfl)).congr rfl rfl rfl rfl
  · exact ((Keeps.congr rfl rfl).trans hk).trans (Keeps.congr rfl rfl)

/-! ## Elementary changes -/

/-- The elementary changes that every operation is made of. Changes of somebody's own proxy list by the proxy pallet
are made by an account that is no futurepass address. -/
inductive Prim (c : Cfg) : St → St → Prop
  | create {s s' : St} (who acc : Acct) : create c s who acc = .ok s' → Prim c s s'
  | register {s s' : St} (who fp d : Acct) (ty : PType) (deadline sig : Nat) :
      register c s who fp d ty deadline sig = .ok s' → Prim c s s'
  | unregister {s s' : St} (who fp d : Acct) : unregister c s who fp d = .ok s' → Prim c s s'
  | transfer {s s' : St} (who cur : Acct) (new : Option Acct) : transfer c s who cur new = .ok s' → Prim c s s'
  | add {s s' : St} (who : Acct) (d : Def) : (∀ n, who ≠ c.addr n) → addProxy c s who d = .ok s' → Prim c s s'
  | remove {s s' : St} (who : Acct) (d : Def) : (∀ n, who ≠ c.addr n) → removeProxy c s who d = .ok s' → Prim c s s'
  | clear {s s' : St} (who : Acct) : (∀ n, who ≠ c.addr n) → setDeposit c s who [] = .ok s' → Prim c s s'
  | pay {s s' : St} (who dst : Acct) (x : Nat) : pay c s who dst x false = .ok s' → Prim c s s'
  | acted {s : St} (who : Acct) : Prim c s { s with events := .acted who :: s.events }

/-- Any number of them. -/
inductive Chain (c : Cfg) : St → St → Prop
  | refl (s : St) : Chain c s s
  | tail {s s1 s2 : St} : Chain c s s1 → Prim c s1 s2 → Chain c s s2

theorem Chain.one {c : Cfg} {s s' : St} (h : Prim c s s') : Chain c s s' := .tail (.refl _) h

theorem Chain.trans {c : Cfg} {a b d : St} (h : Chain c a b) (k : Chain c b d) : Chain c a d := by
  induction k with
  | refl => exact h
  | tail _ hp ih => exact .tail ih hp

theorem proxyBody {c : Cfg} {call : Call} {s s' : St} {real : Acct} {ty : PType}
    (ih : ∀ s', dispatch c call s real (some ty) = .ok s' → Chain c s s')
    (h : (match dispatch c call s real (some ty) with
      | .ok s1 => (.ok s1 : Except Err St)
      | .error _ => .ok s) = .ok s') : Chain c s s' := by
  cases hd : dispatch c call s real (some ty) with
  | ok s1 =>
    rw [hd] at h
    cases h
    exact ih _ hd
  | error e =>
    rw [hd] at h
    cases h
    exact .refl _

theorem dispatch_chain {c : Cfg} : ∀ (call : Call) {s s' : St} {who : Acct} {f : Option PType},
    dispatch c call s who f = .ok s' → (f = none → ∀ n, who ≠ c.addr n) → Chain c s s'
  | .create acc, s, s', who, f, h, _ => by
    simp only [dispatch, bind_ok, ensure_ok] at h
    obtain ⟨_, _, h⟩ := h
    exact .one (.create who acc h)
  | .register fp d ty dl sig, s, s', who, f, h, _ => by
    simp only [dispatch, bind_ok, ensure_ok] at h
    obtain ⟨_, _, h⟩ := h
    exact .one (.register who fp d ty dl sig h)
  | .unregister fp d, s, s', who, f, h, _ => by
    simp only [dispatch, bind_ok, ensure_ok] at h
    obtain ⟨_, _, h⟩ := h
    exact .one (.unregister who fp d h)
  | .transfer cur new, s, s', who, f, h, _ => by
    simp only [dispatch, bind_ok, ensure_ok] at h
    obtain ⟨_, _, h⟩ := h
    exact .one (.transfer who cur new h)
  | .proxyExtrinsic fp call, s, s', who, f, h, _ => by
    simp only [dispatch, bind_ok, ensure_ok, okOr_ok] at h
    obtain ⟨_, _, _, _, _, _, _, _, d, hd, _, _, h⟩ := h
    exact proxyBody (fun s' h => dispatch_chain call h (fun e => by cases e)) h
  | .proxy real force call, s, s', who, f, h, _ => by
    simp only [dispatch, bind_ok, ensure_ok, okOr_ok] at h
    obtain ⟨_, _, d, hd, _, _, h⟩ := h
    exact proxyBody (fun s' h => dispatch_chain call h (fun e => by cases e)) h
  | .addProxy d, s, s', who, f, h, hw => by
    simp only [dispatch, bind_ok, ensure_ok] at h
    obtain ⟨_, hf, h⟩ := h
    cases f with
    | none => exact .one (.add who d (hw rfl) h)
    | some ty => exact absurd hf (by simp [passes, filter])
  | .removeProxy d, s, s', who, f, h, hw => by
    simp only [dispatch, bind_ok, ensure_ok] at h
    obtain ⟨_, hf, h⟩ := h
    cases f with
    | none => exact .one (.remove who d (hw rfl) h)
    | some ty => exact absurd hf (by simp [passes, filter])
  | .removeProxies, s, s', who, f, h, hw => by
    simp only [dispatch, bind_ok, ensure_ok] at h
    obtain ⟨_, hf, h⟩ := h
    cases f with
    | none => exact .one (.clear who (hw rfl) h)
    | some ty => exact absurd hf (by simp [passes, filter])
  | .batch all a b, s, s', who, f, h, hw => by
    simp only [dispatch, bind_ok, ensure_ok] at h
    obtain ⟨_, _, h⟩ := h
    cases ha : dispatch c a s who f with
    | error e =>
      rw [ha] at h
      dsimp only at h
      split at h <;> cases h
      exact .refl _
    | ok s1 =>
      rw [ha] at h
      dsimp only at h
      have h1 := dispatch_chain a ha hw
      cases hb : dispatch c b s1 who f with
      | error e =>
        rw [hb] at h
        dsimp only at h
        split at h <;> cases h
        exact h1
      | ok s2 =>
        rw [hb] at h
        cases h
        exact h1.trans (dispatch_chain b hb hw)
  | .send dst x, s, s', who, f, h, _ => by
    simp only [dispatch, bind_ok, ensure_ok] at h
    obtain ⟨_, _, h⟩ := h
    exact .one (.pay who dst x h)
  | .transact, s, s', who, f, h, _ => by
    simp only [dispatch, bind_ok, ensure_ok, pure_ok] at h
    obtain ⟨_, _, h⟩ := h
    subst h
    exact .one (.acted who)
  | .other, s, s', who, f, h, _ => by
    simp only [dispatch, bind_ok, ensure_ok, pure_ok] at h
    obtain ⟨_, _, h⟩ := h
    subst h
    exact .one (.acted who)

theorem evmCall_prim {c : Cfg} {s s' : St} {w : Acct} {t : Target} (h : evmCall c s w t = .ok s') : Prim c s s' := by
  cases t with
  | pass fp sel =>
    cases sel with
    | register d ty dl sig => exact .register w fp d ty dl sig h
    | unregister d => exact .unregister w fp d h
    | transferOwnership n => exact .transfer w w (some n) h
    | renounceOwnership => exact .transfer w w none h
    | short => cases h
    | unknown => cases h
  | registrar a =>
    cases a with
    | none => cases h
    | some a => exact .create w a h
  | other =>
    cases h
    exact .acted w

/-- `proxyCall` seen from outside. -/
theorem evmProxy_ok {c : Cfg} {s s' : St} {w fp : Acct} {t : Target} (h : evmProxy c s w fp t = .ok s') :
    ∃ m d, evmManages t = .ok m ∧ (m = false ∨ s.holder w = some fp) ∧ findProxy s fp w none = some d ∧
      d.delay = 0 ∧ evmFilter d.ty t = .ok true ∧ evmCall c s fp t = .ok s' := by
  simp only [evmProxy, bind_ok, ensure_ok, okOr_ok] at h
  obtain ⟨m, h1, _, h2, d, h3, _, h4, ok, h5, _, h6, h⟩ := h
  subst h6
  exact ⟨m, d, h1, h2, h3, h4, h5, h⟩

theorem runAct_prim {c : Cfg} {s s' : St} {w : Acct} {a : Act} (h : runAct c s w a = .ok s') : Prim c s s' := by
  cases a with
  | direct t => exact evmCall_prim h
  | proxied fp t =>
    obtain ⟨_, _, _, _, _, _, _, h⟩ := evmProxy_ok h
    exact evmCall_prim h

theorem viaContract_ok {c : Cfg} {s s' : St} {w m : Acct} {dl : Bool} {a : Act}
    (h : viaContract c s w m dl a = .ok s') : runAct c s (if dl then w else m) a = .ok s' := by
  unfold viaContract at h
  split at h
  · rename_i hd
    simp only [bind_ok, ensure_ok] at h
    obtain ⟨_, _, h⟩ := h
    rw [if_pos hd]
    exact h
  · rename_i hd
    rw [if_neg hd]
    exact h

/-- Every step is a chain of elementary changes, a new block or money arriving. -/
theorem step_cases {c : Cfg} {s s' : St} {op : Op} (h : step c s op = .ok s')
    (hk : ∀ who call, op = .call who call → ∀ n, who ≠ c.addr n) :
    Chain c s s' ∨ s' = { s with now := s.now + 1 } ∨ ∃ a x, s' = { s with free := upd s.free a (s.free a + x) } := by
  cases op with
  | call who call => exact .inl (dispatch_chain call h (fun _ => hk who call rfl))
  | evm who a => exact .inl (.one (runAct_prim h))
  | contract who m dl a => exact .inl (.one (runAct_prim (viaContract_ok h)))
  | block =>
    cases h
    exact .inr (.inl rfl)
  | endow a x =>
    cases h
    exact .inr (.inr ⟨a, x, rfl⟩)

end Verif.Futurepass
