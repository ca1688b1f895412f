import Verif.Futurepass.Inv

/-! # Futurepass: who can change what -/

namespace Verif.Futurepass

/-- Account `x` performs one of the four calls that change holders or delegates of futurepasses. -/
def Manage (c : Cfg) (x : Acct) (s s' : St) : Prop :=
  (∃ acc, create c s x acc = .ok s') ∨ (∃ fp d ty dl sig, register c s x fp d ty dl sig = .ok s') ∨
    (∃ fp d, unregister c s x fp d = .ok s') ∨ ∃ cur new, transfer c s x cur new = .ok s'

/-- Holders and the delegates of all futurepass addresses are as before. -/
def Same (c : Cfg) (s s' : St) : Prop :=
  s'.holder = s.holder ∧ ∀ n, s'.proxies (c.addr n) = s.proxies (c.addr n)

theorem Same.refl (c : Cfg) (s : St) : Same c s s := ⟨rfl, fun _ => rfl⟩

theorem Same.trans {c : Cfg} {a b d : St} (h : Same c a b) (k : Same c b d) : Same c a d :=
  ⟨k.1.trans h.1, fun n => (k.2 n).trans (h.2 n)⟩

theorem setDeposit_same {c : Cfg} {s s' : St} {w : Acct} {l : List Def} (hw : ∀ n, w ≠ c.addr n)
    (h : setDeposit c s w l = .ok s') : Same c s s' := by
  obtain ⟨⟨_, c2, _, _⟩, e1, _⟩ := setDeposit_ok h
  exact ⟨c2, fun n => by rw [e1, upd_ne _ _ (fun e => hw n e.symm)]⟩

theorem pay_same {c : Cfg} {s s' : St} {a b : Acct} {x : Nat} {k : Bool}
    (h : pay c s a b x k = .ok s') : Same c s s' := by
  obtain ⟨⟨_, c2, _, _⟩, e1, _⟩ := pay_ok h
  exact ⟨c2, fun n => by rw [e1]⟩

/-- A call under a filter other than the owner's changes no holder and no delegate. -/
theorem filtered {c : Cfg} : ∀ (call : Call) {s s' : St} {who : Acct} {ty : PType}, ty ≠ .owner →
    dispatch c call s who (some ty) = .ok s' → Same c s s'
  | .create acc, s, s', who, ty, _, h => by
    simp only [dispatch, bind_ok, ensure_ok] at h
    obtain ⟨_, hf, h⟩ := h
    exact absurd hf (by simp [passes, filter])
  | .register fp d ty' dl sig, s, s', who, ty, ht, h => by
    simp only [dispatch, bind_ok, ensure_ok] at h
    obtain ⟨_, hf, h⟩ := h
    exact absurd hf (by simp [passes, filter, ht])
  | .unregister fp d, s, s', who, ty, ht, h => by
    simp only [dispatch, bind_ok, ensure_ok] at h
    obtain ⟨_, hf, h⟩ := h
    exact absurd hf (by simp [passes, filter, ht])
  | .transfer cur new, s, s', who, ty, ht, h => by
    simp only [dispatch, bind_ok, ensure_ok] at h
    obtain ⟨_, hf, h⟩ := h
    exact absurd hf (by simp [passes, filter, ht])
  | .proxyExtrinsic fp call, s, s', who, ty, ht, h => by
    simp only [dispatch, bind_ok, ensure_ok, okOr_ok] at h
    obtain ⟨_, hf, _⟩ := h
    exact absurd hf (by simp [passes, filter])
  | .proxy real force call, s, s', who, ty, ht, h => by
    simp only [dispatch, bind_ok, ensure_ok, okOr_ok] at h
    obtain ⟨_, hf, _⟩ := h
    exact absurd hf (by simp [passes, filter])
  | .addProxy d, s, s', who, ty, ht, h => by
    simp only [dispatch, bind_ok, ensure_ok] at h
    obtain ⟨_, hf, _⟩ := h
    exact absurd hf (by simp [passes, filter])
  | .removeProxy d, s, s', who, ty, ht, h => by
    simp only [dispatch, bind_ok, ensure_ok] at h
    obtain ⟨_, hf, _⟩ := h
    exact absurd hf (by simp [passes, filter])
  | .removeProxies, s, s', who, ty, ht, h => by
    simp only [dispatch, bind_ok, ensure_ok] at h
    obtain ⟨_, hf, _⟩ := h
    exact absurd hf (by simp [passes, filter])
  | .batch all a b, s, s', who, ty, ht, h => by
    simp only [dispatch, bind_ok, ensure_ok] at h
    obtain ⟨_, _, h⟩ := h
    cases ha : dispatch c a s who (some ty) with
    | error e =>
      rw [ha] at h
      dsimp only at h
      split at h <;> cases h
      exact Same.refl _ _
    | ok s1 =>
      rw [ha] at h
      dsimp only at h
      have h1 := filtered a ht ha
      cases hb : dispatch c b s1 who (some ty) with
      | error e =>
        rw [hb] at h
        dsimp only at h
        split at h <;> cases h
        exact h1
      | ok s2 =>
        rw [hb] at h
        cases h
        exact h1.trans (filtered b ht hb)
  | .send dst x, s, s', who, ty, ht, h => by
    simp only [dispatch, bind_ok, ensure_ok] at h
    obtain ⟨_, _, h⟩ := h
    exact pay_same h
  | .transact, s, s', who, ty, ht, h => by
    simp only [dispatch, bind_ok, ensure_ok, pure_ok] at h
    obtain ⟨_, _, h⟩ := h
    subst h
    exact ⟨rfl, fun _ => rfl⟩
  | .other, s, s', who, ty, ht, h => by
    simp only [dispatch, bind_ok, ensure_ok, pure_ok] at h
    obtain ⟨_, _, h⟩ := h
    subst h
    exact ⟨rfl, fun _ => rfl⟩

theorem single_proxyBody {c : Cfg} {call : Call} {s s' : St} {real who : Acct} {d : Def}
    (hd : d ∈ s.proxies real) (hw : d.who = who)
    (ih : ∀ s', dispatch c call s real (some d.ty) = .ok s' →
      Same c s s' ∨ ∃ x, Manage c x s s' ∧
        (x = real ∧ (some d.ty = none ∨ some d.ty = some .owner) ∨ some d.ty = none ∧ IsOwner s x real))
    (h : (match dispatch c call s real (some d.ty) with
      | .ok s1 => (.ok s1 : Except Err St)
      | .error _ => .ok s) = .ok s') :
    Same c s s' ∨ ∃ x, Manage c x s s' ∧ IsOwner s x who := by
  cases hdi : dispatch c call s real (some d.ty) with
  | ok s1 =>
    rw [hdi] at h
    cases h
    rcases ih _ hdi with h | ⟨x, hm, ⟨rfl, h | h⟩ | ⟨h, _⟩⟩
    · exact .inl h
    · cases h
    · exact .inr ⟨x, hm, d, hd, hw, Option.some.inj h⟩
    · cases h
  | error e =>
    rw [hdi] at h
    cases h
    exact .inl (Same.refl _ _)

/-- A call without batches makes at most one change, made by the caller or by an account of which the caller is an
owner-level delegate. -/
theorem single_dispatch {c : Cfg} : ∀ (call : Call) {s s' : St} {who : Acct} {f : Option PType},
    single call = true → dispatch c call s who f = .ok s' → (f = none → ∀ n, who ≠ c.addr n) →
    Same c s s' ∨ ∃ x, Manage c x s s' ∧
      (x = who ∧ (f = none ∨ f = some .owner) ∨ f = none ∧ IsOwner s x who)
  | .create acc, s, s', who, f, _, h, _ => by
    simp only [dispatch, bind_ok, ensure_ok] at h
    obtain ⟨_, hf, h⟩ := h
    cases f with
    | none => exact .inr ⟨who, .inl ⟨acc, h⟩, .inl ⟨rfl, .inl rfl⟩⟩
    | some ty => exact absurd hf (by simp [passes, filter])
  | .register fp d ty' dl sig, s, s', who, f, _, h, _ => by
    simp only [dispatch, bind_ok, ensure_ok] at h
    obtain ⟨_, hf, h⟩ := h
    refine .inr ⟨who, .inr (.inl ⟨_, _, _, _, _, h⟩), .inl ⟨rfl, ?_⟩⟩
    cases f with
    | none => exact .inl rfl
    | some ty =>
      simp only [passes, filter, decide_eq_true_eq] at hf
      rw [hf]
      exact .inr rfl
  | .unregister fp d, s, s', who, f, _, h, _ => by
    simp only [dispatch, bind_ok, ensure_ok] at h
    obtain ⟨_, hf, h⟩ := h
    refine .inr ⟨who, .inr (.inr (.inl ⟨_, _, h⟩)), .inl ⟨rfl, ?_⟩⟩
    cases f with
    | none => exact .inl rfl
    | some ty =>
      simp only [passes, filter, decide_eq_true_eq] at hf
      rw [hf]
      exact .inr rfl
  | .transfer cur new, s, s', who, f, _, h, _ => by
    simp only [dispatch, bind_ok, ensure_ok] at h
    obtain ⟨_, hf, h⟩ := h
    refine .inr ⟨who, .inr (.inr (.inr ⟨_, _, h⟩)), .inl ⟨rfl, ?_⟩⟩
    cases f with
    | none => exact .inl rfl
    | some ty =>
      simp only [passes, filter, decide_eq_true_eq] at hf
      rw [hf]
      exact .inr rfl
  | .proxyExtrinsic fp call, s, s', who, f, hs, h, _ => by
    simp only [dispatch, bind_ok, ensure_ok, okOr_ok] at h
    obtain ⟨_, hf, _, _, _, _, _, _, d, hd, _, _, h⟩ := h
    obtain ⟨h1, h2, _⟩ := findProxy_some hd
    cases f with
    | some ty => exact absurd hf (by simp [passes, filter])
    | none =>
      rcases single_proxyBody h1 h2 (fun s' h => single_dispatch call (by simpa [single] using hs) h
        (fun e => by cases e)) h with h | ⟨x, hm, ho⟩
      · exact .inl h
      · exact .inr ⟨x, hm, .inr ⟨rfl, ho⟩⟩
  | .proxy real force call, s, s', who, f, hs, h, _ => by
    simp only [dispatch, bind_ok, ensure_ok, okOr_ok] at h
    obtain ⟨_, hf, d, hd, _, _, h⟩ := h
    obtain ⟨h1, h2, _⟩ := findProxy_some hd
    cases f with
    | some ty => exact absurd hf (by simp [passes, filter])
    | none =>
      rcases single_proxyBody h1 h2 (fun s' h => single_dispatch call (by simpa [single] using hs) h
        (fun e => by cases e)) h with h | ⟨x, hm, ho⟩
      · exact .inl h
      · exact .inr ⟨x, hm, .inr ⟨rfl, ho⟩⟩
  | .addProxy d, s, s', who, f, _, h, hw => by
    simp only [dispatch, bind_ok, ensure_ok] at h
    obtain ⟨_, hf, h⟩ := h
    cases f with
    | none => exact .inl (setDeposit_same (hw rfl) (addProxy_ok h).2.2.2)
    | some ty => exact absurd hf (by simp [passes, filter])
  | .removeProxy d, s, s', who, f, _, h, hw => by
    simp only [dispatch, bind_ok, ensure_ok] at h
    obtain ⟨_, hf, h⟩ := h
    cases f with
    | none => exact .inl (setDeposit_same (hw rfl) (removeProxy_ok h).2)
    | some ty => exact absurd hf (by simp [passes, filter])
  | .removeProxies, s, s', who, f, _, h, hw => by
    simp only [dispatch, bind_ok, ensure_ok] at h
    obtain ⟨_, hf, h⟩ := h
    cases f with
    | none => exact .inl (setDeposit_same (hw rfl) h)
    | some ty => exact absurd hf (by simp [passes, filter])
  | .batch all a b, s, s', who, f, hs, h, hw => by
    simp [single] at hs
  | .send dst x, s, s', who, f, _, h, _ => by
    simp only [dispatch, bind_ok, ensure_ok] at h
    obtain ⟨_, _, h⟩ := h
    exact .inl (pay_same h)
  | .transact, s, s', who, f, _, h, _ => by
    simp only [dispatch, bind_ok, ensure_ok, pure_ok] at h
    obtain ⟨_, _, h⟩ := h
    subst h
    exact .inl ⟨rfl, fun _ => rfl⟩
  | .other, s, s', who, f, _, h, _ => by
    simp only [dispatch, bind_ok, ensure_ok, pure_ok] at h
    obtain ⟨_, _, h⟩ := h
    subst h
    exact .inl ⟨rfl, fun _ => rfl⟩

theorem evmCall_manage {c : Cfg} {s s' : St} {w : Acct} {t : Target} (h : evmCall c s w t = .ok s') :
    Same c s s' ∨ Manage c w s s' := by
  cases t with
  | pass fp sel =>
    cases sel with
    | register d ty dl sig => exact .inr (.inr (.inl ⟨fp, d, ty, dl, sig, h⟩))
    | unregister d => exact .inr (.inr (.inr (.inl ⟨fp, d, h⟩)))
    | transferOwnership n => exact .inr (.inr (.inr (.inr ⟨w, some n, h⟩)))
    | renounceOwnership => exact .inr (.inr (.inr (.inr ⟨w, none, h⟩)))
    | short => cases h
    | unknown => cases h
  | registrar a =>
    cases a with
    | none => cases h
    | some a => exact .inr (.inl ⟨a, h⟩)
  | other =>
    cases h
    exact .inl ⟨rfl, fun _ => rfl⟩

/-- Through `proxyCall`, only the holder changes anything. -/
theorem evmProxy_manage {c : Cfg} {s s' : St} {w fp : Acct} {t : Target} (h : evmProxy c s w fp t = .ok s') :
    Same c s s' ∨ s.holder w = some fp ∧ Manage c fp s s' := by
  obtain ⟨m, d, h1, h2, h3, h4, h5, h⟩ := evmProxy_ok h
  cases t with
  | pass x sel =>
    cases sel with
    | register d ty dl sig =>
      cases h1
      rcases h2 with h2 | h2
      · cases h2
      · exact .inr ⟨h2, .inr (.inl ⟨x, d, ty, dl, sig, h⟩)⟩
    | unregister d =>
      cases h1
      rcases h2 with h2 | h2
      · cases h2
      · exact .inr ⟨h2, .inr (.inr (.inl ⟨x, d, h⟩))⟩
    | transferOwnership n =>
      cases h1
      rcases h2 with h2 | h2
      · cases h2
      · exact .inr ⟨h2, .inr (.inr (.inr ⟨fp, some n, h⟩))⟩
    | renounceOwnership => cases h5
    | short => cases h
    | unknown => cases h
  | registrar a =>
    cases a with
    | none => cases h
    | some a => cases h5
  | other =>
    cases h
    exact .inl ⟨rfl, fun _ => rfl⟩

theorem runAct_by {c : Cfg} {s s' : St} {p : Acct} {a : Act} (H : Inv c s) (h : runAct c s p a = .ok s') :
    Same c s s' ∨ ∃ x, Manage c x s s' ∧ (x = p ∨ IsOwner s x p) := by
  cases a with
  | direct t =>
    rcases evmCall_manage h with h | h
    · exact .inl h
    · exact .inr ⟨p, h, .inl rfl⟩
  | proxied fp t =>
    rcases evmProxy_manage h with h | ⟨h1, h⟩
    · exact .inl h
    · exact .inr ⟨fp, h, .inr ⟨_, H.ent p fp h1, rfl, rfl⟩⟩

/-- Every step without batches makes at most one change, made by the principal of the operation or by an account of
which it is an owner-level delegate. -/
theorem step_by {c : Cfg} {s s' : St} {op : Op} (H : Inv c s) (hk : NoKey c s op) (h : step c s op = .ok s')
    (hs : Single op) : Same c s s' ∨ ∃ p x, principal op = some p ∧ Manage c x s s' ∧ (x = p ∨ IsOwner s x p) := by
  cases op with
  | call who call =>
    rcases single_dispatch call hs h (fun _ => hk) with h | ⟨x, hm, ⟨e, _⟩ | ⟨_, ho⟩⟩
    · exact .inl h
    · exact .inr ⟨who, x, rfl, hm, .inl e⟩
    · exact .inr ⟨who, x, rfl, hm, .inr ho⟩
  | evm who a =>
    rcases runAct_by H h with h | ⟨x, hm, hx⟩
    · exact .inl h
    · exact .inr ⟨who, x, rfl, hm, hx⟩
  | contract who m dl a =>
    rcases runAct_by H (viaContract_ok h) with h | ⟨x, hm, hx⟩
    · exact .inl h
    · exact .inr ⟨_, x, rfl, hm, hx⟩
  | block =>
    cases h
    exact .inl ⟨rfl, fun _ => rfl⟩
  | endow a x =>
    cases h
    exact .inl ⟨rfl, fun _ => rfl⟩

/-! ## New delegates -/

/-- The block number does not change inside a chain. -/
theorem Prim.now {c : Cfg} {s s' : St} (h : Prim c s s') : s'.now = s.now := by
  cases h with
  | create who acc h => exact (create_ok h).2.2.2.2.1
  | register who fp d ty dl sig h =>
    obtain ⟨_, _, _, _, _, _, _, _, e, _⟩ := register_ok h
    exact e
  | unregister who fp d h =>
    obtain ⟨x, _, _, _, _, _, _, e, _⟩ := unregister_ok h
    exact e
  | transfer who cur new h =>
    cases new with
    | none =>
      obtain ⟨fp, _, _, _, _, e, _⟩ := transfer_none h
      exact e
    | some n =>
      obtain ⟨fp, _, _, _, _, _, _, _, e, _⟩ := transfer_some h
      exact e
  | add who d _ h => exact (setDeposit_ok (addProxy_ok h).2.2.2).1.2.2.1
  | remove who d _ h => exact (setDeposit_ok (removeProxy_ok h).2).1.2.2.1
  | clear who _ h => exact (setDeposit_ok h).1.2.2.1
  | pay who dst x h => exact (pay_ok h).1.2.2.1
  | acted who => rfl

/-- A delegate entry of a futurepass is old, at the level of an owner, or agreed to. -/
theorem Prim.entry {c : Cfg} {s s' : St} (h : Prim c s s') {n : Nat} {d : Def} (hd : d ∈ s'.proxies (c.addr n)) :
    d ∈ s.proxies (c.addr n) ∨ d.ty = .owner ∨ Agreed c s (c.addr n) d.who := by
  cases h with
  | create who acc h =>
    obtain ⟨_, _, _, _, _, _, e, _⟩ := create_ok h
    rw [e] at hd
    by_cases hf : c.addr n = c.addr s.next
    · rw [hf, upd_same] at hd
      rw [hf]
      rcases mem_insertDef.mp hd with rfl | hd
      · exact .inr (.inl rfl)
      · exact .inl hd
    · rw [upd_ne _ _ hf] at hd
      exact .inl hd
  | register who fp d' ty dl sig h =>
    obtain ⟨_, h2, _, h4, h5, _, _, _, _, _, e, _⟩ := register_ok h
    rw [e] at hd
    by_cases hf : c.addr n = fp
    · rw [hf, upd_same] at hd
      rw [hf]
      rcases mem_insertDef.mp hd with rfl | hd
      · subst h2
        exact .inr (.inr ⟨sig, dl, h4, h5⟩)
      · exact .inl hd
    · rw [upd_ne _ _ hf] at hd
      exact .inl hd
  | unregister who fp d' h =>
    obtain ⟨x, _, _, _, _, _, _, _, _, e, _⟩ := unregister_ok h
    rw [e] at hd
    by_cases hf : c.addr n = fp
    · rw [hf, upd_same] at hd
      rw [hf]
      exact .inl (List.mem_of_mem_erase hd)
    · rw [upd_ne _ _ hf] at hd
      exact .inl hd
  | transfer who cur new h =>
    cases new with
    | none =>
      obtain ⟨fp, _, _, _, _, _, _, e, _⟩ := transfer_none h
      rw [e] at hd
      by_cases hf : c.addr n = fp
      · rw [hf, upd_same] at hd
        exact absurd hd (List.not_mem_nil)
      · rw [upd_ne _ _ hf] at hd
        exact .inl hd
    | some m =>
      obtain ⟨fp, _, _, _, _, _, _, _, _, _, e, e', _⟩ := transfer_some h
      by_cases hf : c.addr n = fp
      · rw [hf] at hd ⊢
        rcases ((e' d).mp hd).2 with rfl | hd
        · exact .inr (.inl rfl)
        · exact .inl hd
      · rw [e _ hf] at hd
        exact .inl hd
  | add who d' hw h =>
    rw [(setDeposit_same hw (addProxy_ok h).2.2.2).2 n] at hd
    exact .inl hd
  | remove who d' hw h =>
    rw [(setDeposit_same hw (removeProxy_ok h).2).2 n] at hd
    exact .inl hd
  | clear who hw h =>
    rw [(setDeposit_same hw h).2 n] at hd
    exact .inl hd
  | pay who dst x h =>
    rw [(pay_same h).2 n] at hd
    exact .inl hd
  | acted who => exact .inl hd

theorem Chain.now {c : Cfg} {s s' : St} (h : Chain c s s') : s'.now = s.now := by
  induction h with
  | refl => rfl
  | tail _ hp ih => exact hp.now.trans ih

theorem Chain.entry {c : Cfg} {s s' : St} (h : Chain c s s') {n : Nat} {d : Def}
    (hd : d ∈ s'.proxies (c.addr n)) :
    d ∈ s.proxies (c.addr n) ∨ d.ty = .owner ∨ Agreed c s (c.addr n) d.who := by
  induction h with
  | refl => exact .inl hd
  | tail hc hp ih =>
    rcases hp.entry hd with h | h | ⟨sig, dl, h1, h2⟩
    · exact ih h
    · exact .inr (.inl h)
    · rw [hc.now] at h1
      exact .inr (.inr ⟨sig, dl, h1, h2⟩)

end Verif.Futurepass
