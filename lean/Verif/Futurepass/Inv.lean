import Verif.Futurepass.Ops
import Verif.Futurepass.Spec

/-! # Futurepass: the invariant -/

namespace Verif.Futurepass

/-- What holds as long as the counter has not wrapped. -/
structure Inv (c : Cfg) (s : St) : Prop where
  next : s.next = 1 + creations s
  held : ∀ a fp, s.holder a = some fp → ∃ n, fp = c.addr n ∧ n < s.next
  inj : ∀ a b fp, s.holder a = some fp → s.holder b = some fp → a = b
  ent : ∀ a fp, s.holder a = some fp → (⟨a, .owner, 0⟩ : Def) ∈ s.proxies fp
  own : ∀ n d, d ∈ s.proxies (c.addr n) →
    d.delay = 0 ∧ (d.ty = .owner ∧ s.holder d.who = some (c.addr n) ∨ d.ty = .any)
  blank : ∀ n, s.next ≤ n → s.proxies (c.addr n) = []
  made : ∀ fp a, Ev.created fp a ∈ s.events → ∃ n, fp = c.addr n ∧ n < s.next
  uniq : (s.events.filterMap (fun e => match e with
    | .created fp _ => some fp
    | _ => none)).Nodup

/-- One for a creation. -/
def bump : Ev → Nat
  | .created _ _ => 1
  | _ => 0

theorem creations_cons {s s' : St} {e : Ev} (h : s'.events = e :: s.events) :
    creations s' = creations s + bump e := by
  unfold creations
  rw [h, List.countP_cons]
  cases e <;> rfl

theorem creations_congr {s s' : St} (h : s'.events = s.events) : creations s' = creations s := by
  unfold creations
  rw [h]

/-- The invariant depends on the holders, lists, the counter and the events only. -/
theorem Inv.congr {c : Cfg} {s s' : St} (H : Inv c s) (e1 : s'.next = s.next) (e2 : s'.holder = s.holder)
    (e3 : ∀ n, s'.proxies (c.addr n) = s.proxies (c.addr n)) (e4 : s'.events = s.events) : Inv c s' where
  next := by rw [e1, creations_congr e4]; exact H.next
  held := by rw [e1, e2]; exact H.held
  inj := by rw [e2]; exact H.inj
  ent := by
    intro a fp h
    rw [e2] at h
    obtain ⟨n, rfl, _⟩ := H.held a fp h
    rw [e3]
    exact H.ent a _ h
  own := by
    intro n d
    rw [e3, e2]
    exact H.own n d
  blank := by
    intro n
    rw [e1, e3]
    exact H.blank n
  made := by rw [e1, e4]; exact H.made
  uniq := by rw [e4]; exact H.uniq

/-- Events other than creations do not matter. -/
theorem Inv.log {c : Cfg} {s s' : St} {e : Ev} (H : Inv c s) (e1 : s'.next = s.next) (e2 : s'.holder = s.holder)
    (e3 : ∀ n, s'.proxies (c.addr n) = s.proxies (c.addr n)) (e4 : s'.events = e :: s.events)
    (he : ∀ fp a, e ≠ .created fp a) : Inv c s' where
  next := by
    rw [e1, creations_cons e4, H.next]
    cases e with
    | created fp a => exact absurd rfl (he fp a)
    | _ => rfl
  held := by rw [e1, e2]; exact H.held
  inj := by rw [e2]; exact H.inj
  ent := by
    intro a fp h
    rw [e2] at h
    obtain ⟨n, rfl, _⟩ := H.held a fp h
    rw [e3]
    exact H.ent a _ h
  own := by
    intro n d
    rw [e3, e2]
    exact H.own n d
  blank := by
    intro n
    rw [e1, e3]
    exact H.blank n
  made := by
    intro fp a h
    rw [e4] at h
    rcases List.mem_cons.mp h with h | h
    · exact absurd h.symm (he fp a)
    · rw [e1]
      exact H.made fp a h
  uniq := by
    rw [e4]
    cases e with
    | created fp a => exact absurd rfl (he fp a)
    | _ => exact H.uniq

theorem Inv.create {c : Cfg} {s s' : St} {who acc : Acct} (H : Inv c s) (h : create c s who acc = .ok s')
    (hr : creations s' + 1 < U128) : Inv c s' := by
  obtain ⟨h1, h2, h3, h4, _, h6, h7, _⟩ := create_ok h
  have hc := creations_cons h6
  change _ = _ + 1 at hc
  have hn := H.next
  have h3' : s'.next = s.next + 1 := by rw [h3, Nat.mod_eq_of_lt (by omega)]
  have hb := H.blank s.next (Nat.le_refl _)
  rw [hb] at h7
  refine ⟨by omega, ?_, ?_, ?_, ?_, ?_, ?_, ?_⟩
  · intro a fp ha
    rw [h4] at ha
    by_cases e : a = acc
    · subst e
      rw [upd_same] at ha
      exact ⟨s.next, (Option.some.inj ha).symm, by omega⟩
    · rw [upd_ne _ _ e] at ha
      obtain ⟨n, e1, e2⟩ := H.held a fp ha
      exact ⟨n, e1, by omega⟩
  · intro a b fp ha hb'
    rw [h4] at ha hb'
    by_cases ea : a = acc
    · by_cases eb : b = acc
      · exact ea.trans eb.symm
      · rw [ea, upd_same] at ha
        rw [upd_ne _ _ eb] at hb'
        obtain ⟨n, e1, e2⟩ := H.held b fp hb'
        have := Option.some.inj ha
        rw [e1] at this
        have := c.addr_inj _ _ this
        omega
    · rw [upd_ne _ _ ea] at ha
      by_cases eb : b = acc
      · rw [eb, upd_same] at hb'
        obtain ⟨n, e1, e2⟩ := H.held a fp ha
        have := Option.some.inj hb'
        rw [e1] at this
        have := c.addr_inj _ _ this
        omega
      · rw [upd_ne _ _ eb] at hb'
        exact H.inj a b fp ha hb'
  · intro a fp ha
    rw [h4] at ha
    rw [h7]
    by_cases e : a = acc
    · subst e
      rw [upd_same] at ha
      rw [← Option.some.inj ha, upd_same]
      exact mem_insertDef.mpr (.inl rfl)
    · rw [upd_ne _ _ e] at ha
      obtain ⟨n, e1, e2⟩ := H.held a fp ha
      have hne : fp ≠ c.addr s.next := by
        intro e3
        rw [e1] at e3
        have := c.addr_inj _ _ e3
        omega
      rw [upd_ne _ _ hne]
      exact H.ent a fp ha
  · intro n d hd
    rw [h7] at hd
    rw [h4]
    by_cases e : n = s.next
    · subst e
      rw [upd_same] at hd
      rcases mem_insertDef.mp hd with rfl | hd
      · exact ⟨rfl, .inl ⟨rfl, by dsimp only; rw [upd_same]⟩⟩
      · exact absurd hd (List.not_mem_nil)
    · have hne : c.addr n ≠ c.addr s.next := fun e1 => e (c.addr_inj _ _ e1)
      rw [upd_ne _ _ hne] at hd
      obtain ⟨k1, k2⟩ := H.own n d hd
      refine ⟨k1, ?_⟩
      rcases k2 with ⟨k2, k3⟩ | k2
      · refine .inl ⟨k2, ?_⟩
        have : d.who ≠ acc := by
          intro e1
          rw [e1, h1] at k3
          cases k3
        rw [upd_ne _ _ this]
        exact k3
      · exact .inr k2
  · intro n hle
    rw [h7]
    have hne : c.addr n ≠ c.addr s.next := by
      intro e1
      have := c.addr_inj _ _ e1
      omega
    rw [upd_ne _ _ hne]
    exact H.blank n (by omega)
  · intro fp a hm
    rw [h6] at hm
    rcases List.mem_cons.mp hm with hm | hm
    · injection hm with e1 e2
      exact ⟨s.next, e1, by omega⟩
    · obtain ⟨n, e1, e2⟩ := H.made fp a hm
      exact ⟨n, e1, by omega⟩
  · rw [h6, List.filterMap_cons]
    refine List.nodup_cons.mpr ⟨?_, H.uniq⟩
    intro hm
    obtain ⟨e, he, hv⟩ := List.mem_filterMap.mp hm
    cases e with
    | created fp a =>
      dsimp only at hv
      obtain ⟨n, e1, e2⟩ := H.made fp a he
      have := Option.some.inj hv
      rw [e1] at this
      have := c.addr_inj _ _ this
      omega
    | _ => cases hv

/-- A change of the delegates of one futurepass that keeps the owner entries. -/
theorem Inv.relist {c : Cfg} {s s' : St} {e : Ev} {fp : Acct} {l : List Def} (H : Inv c s) (e1 : s'.next = s.next)
    (e2 : s'.holder = s.holder) (e3 : s'.proxies = upd s.proxies fp l) (e4 : s'.events = e :: s.events)
    (he : ∀ fp a, e ≠ .created fp a)
    (h1 : ∀ d ∈ l, d ∈ s.proxies fp ∨ d.delay = 0 ∧ d.ty = .any)
    (h2 : ∀ a, s.holder a = some fp → (⟨a, .owner, 0⟩ : Def) ∈ s.proxies fp → (⟨a, .owner, 0⟩ : Def) ∈ l)
    (h3 : ∀ n, fp = c.addr n → n < s.next) : Inv c s' where
  next := by
    rw [e1, creations_cons e4, H.next]
    cases e with
    | created fp a => exact absurd rfl (he fp a)
    | _ => rfl
  held := by rw [e1, e2]; exact H.held
  inj := by rw [e2]; exact H.inj
  ent := by
    intro a f h
    rw [e2] at h
    rw [e3]
    by_cases hf : f = fp
    · subst hf
      rw [upd_same]
      exact h2 a h (H.ent a _ h)
    · rw [upd_ne _ _ hf]
      exact H.ent a f h
  own := by
    intro n d hd
    rw [e3] at hd
    rw [e2]
    by_cases hf : c.addr n = fp
    · rw [hf, upd_same] at hd
      rcases h1 d hd with hd | hd
      · rw [← hf] at hd
        exact H.own n d hd
      · exact ⟨hd.1, .inr hd.2⟩
    · rw [upd_ne _ _ hf] at hd
      exact H.own n d hd
  blank := by
    intro n hle
    rw [e1] at hle
    rw [e3]
    have hf : c.addr n ≠ fp := by
      intro hf
      have := h3 n hf.symm
      omega
    rw [upd_ne _ _ hf]
    exact H.blank n hle
  made := by
    intro f a h
    rw [e4] at h
    rcases List.mem_cons.mp h with h | h
    · exact absurd h.symm (he f a)
    · rw [e1]
      exact H.made f a h
  uniq := by
    rw [e4]
    cases e with
    | created fp a => exact absurd rfl (he fp a)
    | _ => exact H.uniq

theorem Inv.register {c : Cfg} {s s' : St} {who fp d : Acct} {ty : PType} {dl sig : Nat} (H : Inv c s)
    (hw : who = fp → ∀ n, fp = c.addr n → n < s.next) (h : register c s who fp d ty dl sig = .ok s') : Inv c s' := by
  obtain ⟨h1, h2, _, _, _, _, e1, e2, _, e4, e3, _⟩ := register_ok h
  refine H.relist e1 e2 e3 e4 (fun _ _ => by simp) ?_ ?_ ?_
  · intro x hx
    rcases mem_insertDef.mp hx with rfl | hx
    · exact .inr ⟨rfl, h2⟩
    · exact .inl hx
  · intro a _ hm
    exact mem_insertDef.mpr (.inr hm)
  · rcases h1 with h1 | h1
    · exact hw h1
    · intro n e
      obtain ⟨m, k1, k2⟩ := H.held who fp h1
      rw [e] at k1
      have := c.addr_inj _ _ k1
      omega

theorem Inv.unregister {c : Cfg} {s s' : St} {who fp d : Acct} (H : Inv c s)
    (h : unregister c s who fp d = .ok s') : Inv c s' := by
  obtain ⟨x, hx, hm, h1, _, e1, e2, _, e4, e3, _⟩ := unregister_ok h
  refine H.relist e1 e2 e3 e4 (fun _ _ => by simp) ?_ ?_ ?_
  · intro y hy
    exact .inl (List.mem_of_mem_erase hy)
  · intro a ha hm2
    refine (List.mem_erase_of_ne ?_).mpr hm2
    intro e
    injection e with e5
    rw [e5] at ha
    exact h1 ha
  · intro n e
    by_contra hn
    have := H.blank n (by omega)
    rw [e, this] at hm
    exact absurd hm (List.not_mem_nil)

theorem Inv.transfer {c : Cfg} {s s' : St} {who cur : Acct} {new : Option Acct} (H : Inv c s)
    (h : transfer c s who cur new = .ok s') : Inv c s' := by
  cases new with
  | none =>
    obtain ⟨fp, h1, h2, e1, e2, _, e4, e3, _⟩ := transfer_none h
    have hold : ∀ a f, s'.holder a = some f → s.holder a = some f ∧ f ≠ fp := by
      intro a f ha
      rw [e2] at ha
      by_cases e : a = cur
      · rw [e, upd_same] at ha
        cases ha
      · rw [upd_ne _ _ e] at ha
        refine ⟨ha, ?_⟩
        rintro rfl
        exact e (H.inj a cur _ ha h1)
    refine ⟨?_, ?_, ?_, ?_, ?_, ?_, ?_, ?_⟩
    · rw [e1, creations_cons e4]
      exact H.next
    · intro a f ha
      rw [e1]
      exact H.held a f (hold a f ha).1
    · intro a b f ha hb
      exact H.inj a b f (hold a f ha).1 (hold b f hb).1
    · intro a f ha
      rw [e3, upd_ne _ _ (hold a f ha).2]
      exact H.ent a f (hold a f ha).1
    · intro n d hd
      rw [e3] at hd
      by_cases hf : c.addr n = fp
      · rw [hf, upd_same] at hd
        exact absurd hd (List.not_mem_nil)
      · rw [upd_ne _ _ hf] at hd
        obtain ⟨k1, k2⟩ := H.own n d hd
        refine ⟨k1, ?_⟩
        rcases k2 with ⟨k2, k3⟩ | k2
        · refine .inl ⟨k2, ?_⟩
          rw [e2]
          have : d.who ≠ cur := by
            intro e
            rw [e, h1] at k3
            exact hf (Option.some.inj k3).symm
          rw [upd_ne _ _ this]
          exact k3
        · exact .inr k2
    · intro n hle
      rw [e1] at hle
      rw [e3]
      by_cases hf : c.addr n = fp
      · rw [hf, upd_same]
      · rw [upd_ne _ _ hf]
        exact H.blank n hle
    · intro f a hm
      rw [e4] at hm
      rcases List.mem_cons.mp hm with hm | hm
      · cases hm
      · rw [e1]
        exact H.made f a hm
    · rw [e4]
      exact H.uniq
  | some n =>
    obtain ⟨fp, h1, h2, h3, h4, h5, e1, e2, _, e4, e3, e5, _⟩ := transfer_some h
    have hold : ∀ a f, s'.holder a = some f → (a = n ∧ f = fp) ∨ (a ≠ n ∧ a ≠ cur ∧ s.holder a = some f ∧ f ≠ fp) := by
      intro a f ha
      rw [e2] at ha
      by_cases e : a = n
      · rw [e, upd_same] at ha
        exact .inl ⟨e, (Option.some.inj ha).symm⟩
      · rw [upd_ne _ _ e] at ha
        by_cases e' : a = cur
        · rw [e', upd_same] at ha
          cases ha
        · rw [upd_ne _ _ e'] at ha
          refine .inr ⟨e, e', ha, ?_⟩
          rintro rfl
          exact e' (H.inj a cur _ ha h1)
    refine ⟨?_, ?_, ?_, ?_, ?_, ?_, ?_, ?_⟩
    · rw [e1, creations_cons e4]
      exact H.next
    · intro a f ha
      rw [e1]
      rcases hold a f ha with ⟨_, rfl⟩ | ⟨_, _, k, _⟩
      · exact H.held cur _ h1
      · exact H.held a f k
    · intro a b f ha hb
      rcases hold a f ha with ⟨k1, k2⟩ | ⟨_, _, k, k'⟩
      · rcases hold b f hb with ⟨l1, _⟩ | ⟨_, _, l, l'⟩
        · exact k1.trans l1.symm
        · exact absurd k2 l'
      · rcases hold b f hb with ⟨_, l2⟩ | ⟨_, _, l, l'⟩
        · exact absurd l2 k'
        · exact H.inj a b f k l
    · intro a f ha
      rcases hold a f ha with ⟨rfl, rfl⟩ | ⟨_, _, k, k'⟩
      · exact (e5 _).mpr ⟨rfl, .inl rfl⟩
      · rw [e3 f k']
        exact H.ent a f k
    · intro m d hd
      by_cases hf : c.addr m = fp
      · rw [hf] at hd
        obtain ⟨k1, k2⟩ := (e5 d).mp hd
        rcases k2 with rfl | k2
        · refine ⟨rfl, .inl ⟨rfl, ?_⟩⟩
          rw [e2, hf]
          exact upd_same _ _ _
        · rw [← hf] at k2
          obtain ⟨l1, l2⟩ := H.own m d k2
          refine ⟨l1, ?_⟩
          rcases l2 with ⟨l2, l3⟩ | l2
          · exfalso
            apply h5
            rw [← hf]
            have : d = ⟨n, .owner, 0⟩ := by
              cases d
              simp only at k1 l1 l2
              subst k1 l1 l2
              rfl
            rw [← this]
            exact k2
          · exact .inr l2
      · rw [e3 _ hf] at hd
        obtain ⟨k1, k2⟩ := H.own m d hd
        refine ⟨k1, ?_⟩
        rcases k2 with ⟨k2, k3⟩ | k2
        · refine .inl ⟨k2, ?_⟩
          rw [e2]
          have hcur : d.who ≠ cur := by
            intro e
            rw [e, h1] at k3
            exact hf (Option.some.inj k3).symm
          have hn : d.who ≠ n := by
            intro e
            rw [e] at k3
            have hnc : n ≠ cur := by rwa [e] at hcur
            rw [upd_ne _ _ hnc, k3] at h3
            cases h3
          rw [upd_ne _ _ hn, upd_ne _ _ hcur]
          exact k3
        · exact .inr k2
    · intro m hle
      rw [e1] at hle
      have hf : c.addr m ≠ fp := by
        intro e
        obtain ⟨k, k1, k2⟩ := H.held cur fp h1
        rw [k1] at e
        have := c.addr_inj _ _ e
        omega
      rw [e3 _ hf]
      exact H.blank m hle
    · intro f a hm
      rw [e4] at hm
      rcases List.mem_cons.mp hm with hm | hm
      · cases hm
      · rw [e1]
        exact H.made f a hm
    · rw [e4]
      exact H.uniq

/-! ## All operations -/

/-- The account is not a futurepass address that has yet to be created. -/
def Live (c : Cfg) (s : St) (w : Acct) : Prop := ∀ n, w = c.addr n → n < s.next

theorem Prim.mono {c : Cfg} {s s' : St} (h : Prim c s s') : creations s ≤ creations s' := by
  cases h with
  | create who acc h =>
    rw [creations_cons (create_ok h).2.2.2.2.2.1]
    omega
  | register who fp d ty dl sig h =>
    obtain ⟨_, _, _, _, _, _, _, _, _, e4, _⟩ := register_ok h
    rw [creations_cons e4]
    omega
  | unregister who fp d h =>
    obtain ⟨x, _, _, _, _, _, _, _, e4, _⟩ := unregister_ok h
    rw [creations_cons e4]
    omega
  | transfer who cur new h =>
    cases new with
    | none =>
      obtain ⟨fp, _, _, _, _, _, e4, _⟩ := transfer_none h
      rw [creations_cons e4]
      omega
    | some n =>
      obtain ⟨fp, _, _, _, _, _, _, _, _, e4, _⟩ := transfer_some h
      rw [creations_cons e4]
      omega
  | add who d _ h => exact (creations_congr (setDeposit_ok (addProxy_ok h).2.2.2).1.2.2.2).ge
  | remove who d _ h => exact (creations_congr (setDeposit_ok (removeProxy_ok h).2).1.2.2.2).ge
  | clear who _ h => exact (creations_congr (setDeposit_ok h).1.2.2.2).ge
  | pay who dst x h => exact (creations_congr (pay_ok h).1.2.2.2).ge
  | acted who =>
    have := creations_cons (s := s) (s' := { s with events := .acted who :: s.events }) (e := .acted who) rfl
    omega

theorem Chain.mono {c : Cfg} {s s' : St} (h : Chain c s s') : creations s ≤ creations s' := by
  induction h with
  | refl => exact Nat.le_refl _
  | tail _ hp ih => exact Nat.le_trans ih hp.mono

theorem Inv.setDeposit {c : Cfg} {s s' : St} {w : Acct} {l : List Def} (H : Inv c s) (hw : ∀ n, w ≠ c.addr n)
    (h : setDeposit c s w l = .ok s') : Inv c s' := by
  obtain ⟨⟨c1, c2, _, c4⟩, e1, _⟩ := setDeposit_ok h
  exact H.congr c1 c2 (fun n => by rw [e1, upd_ne _ _ (fun e => hw n e.symm)]) c4

theorem Inv.pay {c : Cfg} {s s' : St} {a b : Acct} {x : Nat} {k : Bool} (H : Inv c s)
    (h : pay c s a b x k = .ok s') : Inv c s' := by
  obtain ⟨⟨c1, c2, _, c4⟩, e1, _⟩ := pay_ok h
  exact H.congr c1 c2 (fun n => by rw [e1]) c4

theorem Inv.acted {c : Cfg} {s : St} (H : Inv c s) (w : Acct) : Inv c { s with events := .acted w :: s.events } :=
  H.log rfl rfl (fun _ => rfl) rfl (fun _ _ => by simp)

theorem Inv.live {c : Cfg} {s : St} (H : Inv c s) {fp w : Acct} {f : Option PType} {d : Def}
    (h : findProxy s fp w f = some d) : Live c s fp := by
  intro n e
  by_contra hn
  have hm := (findProxy_some h).1
  rw [e, H.blank n (by omega)] at hm
  exact absurd hm (List.not_mem_nil)

theorem inv_proxyBody {c : Cfg} {call : Call} {s s' : St} {real : Acct} {ty : PType} (H : Inv c s)
    (ih : ∀ s', dispatch c call s real (some ty) = .ok s' → creations s' + 1 < U128 → Inv c s')
    (h : (match dispatch c call s real (some ty) with
      | .ok s1 => (.ok s1 : Except Err St)
      | .error _ => .ok s) = .ok s') (hr : creations s' + 1 < U128) : Inv c s' := by
  cases hd : dispatch c call s real (some ty) with
  | ok s1 =>
    rw [hd] at h
    cases h
    exact ih _ hd hr
  | error e =>
    rw [hd] at h
    cases h
    exact H

theorem Inv.dispatch {c : Cfg} : ∀ (call : Call) {s s' : St} {who : Acct} {f : Option PType}, Inv c s →
    Live c s who → dispatch c call s who f = .ok s' → (f = none → ∀ n, who ≠ c.addr n) →
    creations s' + 1 < U128 → Inv c s'
  | .create acc, s, s', who, f, H, _, h, _, hr => by
    simp only [Futurepass.dispatch, bind_ok, ensure_ok] at h
    obtain ⟨_, _, h⟩ := h
    exact H.create h hr
  | .register fp d ty dl sig, s, s', who, f, H, hl, h, _, hr => by
    simp only [Futurepass.dispatch, bind_ok, ensure_ok] at h
    obtain ⟨_, _, h⟩ := h
    exact H.register (fun e => by rw [← e]; exact hl) h
  | .unregister fp d, s, s', who, f, H, _, h, _, hr => by
    simp only [Futurepass.dispatch, bind_ok, ensure_ok] at h
    obtain ⟨_, _, h⟩ := h
    exact H.unregister h
  | .transfer cur new, s, s', who, f, H, _, h, _, hr => by
    simp only [Futurepass.dispatch, bind_ok, ensure_ok] at h
    obtain ⟨_, _, h⟩ := h
    exact H.transfer h
  | .proxyExtrinsic fp call, s, s', who, f, H, _, h, _, hr => by
    simp only [Futurepass.dispatch, bind_ok, ensure_ok, okOr_ok] at h
    obtain ⟨_, _, _, _, _, _, _, _, d, hd, _, _, h⟩ := h
    exact inv_proxyBody H (fun s' h hr => Inv.dispatch call H (H.live hd) h (fun e => by cases e) hr) h hr
  | .proxy real force call, s, s', who, f, H, _, h, _, hr => by
    simp only [Futurepass.dispatch, bind_ok, ensure_ok, okOr_ok] at h
    obtain ⟨_, _, d, hd, _, _, h⟩ := h
    exact inv_proxyBody H (fun s' h hr => Inv.dispatch call H (H.live hd) h (fun e => by cases e) hr) h hr
  | .addProxy d, s, s', who, f, H, _, h, hw, hr => by
    simp only [Futurepass.dispatch, bind_ok, ensure_ok] at h
    obtain ⟨_, hf, h⟩ := h
    cases f with
    | none => exact H.setDeposit (hw rfl) (addProxy_ok h).2.2.2
    | some ty => exact absurd hf (by simp [passes, filter])
  | .removeProxy d, s, s', who, f, H, _, h, hw, hr => by
    simp only [Futurepass.dispatch, bind_ok, ensure_ok] at h
    obtain ⟨_, hf, h⟩ := h
    cases f with
    | none => exact H.setDeposit (hw rfl) (removeProxy_ok h).2
    | some ty => exact absurd hf (by simp [passes, filter])
  | .removeProxies, s, s', who, f, H, _, h, hw, hr => by
    simp only [Futurepass.dispatch, bind_ok, ensure_ok] at h
    obtain ⟨_, hf, h⟩ := h
    cases f with
    | none => exact H.setDeposit (hw rfl) h
    | some ty => exact absurd hf (by simp [passes, filter])
  | .batch all a b, s, s', who, f, H, hl, h, hw, hr => by
    simp only [Futurepass.dispatch, bind_ok, ensure_ok] at h
    obtain ⟨_, _, h⟩ := h
    cases ha : Futurepass.dispatch c a s who f with
    | error e =>
      rw [ha] at h
      dsimp only at h
      split at h <;> cases h
      exact H
    | ok s1 =>
      rw [ha] at h
      dsimp only at h
      have m1 := (dispatch_chain a ha hw).mono
      cases hb : Futurepass.dispatch c b s1 who f with
      | error e =>
        rw [hb] at h
        dsimp only at h
        split at h <;> cases h
        exact Inv.dispatch a H hl ha hw hr
      | ok s2 =>
        rw [hb] at h
        cases h
        have m2 := (dispatch_chain b hb hw).mono
        have H1 := Inv.dispatch a H hl ha hw (by omega)
        refine Inv.dispatch b H1 ?_ hb hw hr
        intro n e
        have := hl n e
        have k1 := H.next
        have k2 := H1.next
        omega
  | .send dst x, s, s', who, f, H, _, h, _, hr => by
    simp only [Futurepass.dispatch, bind_ok, ensure_ok] at h
    obtain ⟨_, _, h⟩ := h
    exact H.pay h
  | .transact, s, s', who, f, H, _, h, _, hr => by
    simp only [Futurepass.dispatch, bind_ok, ensure_ok, pure_ok] at h
    obtain ⟨_, _, h⟩ := h
    subst h
    exact H.acted who
  | .other, s, s', who, f, H, _, h, _, hr => by
    simp only [Futurepass.dispatch, bind_ok, ensure_ok, pure_ok] at h
    obtain ⟨_, _, h⟩ := h
    subst h
    exact H.acted who

theorem Inv.evmCall {c : Cfg} {s s' : St} {w : Acct} {t : Target} (H : Inv c s) (hl : Live c s w)
    (h : evmCall c s w t = .ok s') (hr : creations s' + 1 < U128) : Inv c s' := by
  cases t with
  | pass fp sel =>
    cases sel with
    | register d ty dl sig => exact Inv.register (who := w) H (fun e => by rw [← e]; exact hl) h
    | unregister d => exact Inv.unregister (who := w) H h
    | transferOwnership n => exact Inv.transfer (who := w) (new := some n) H h
    | renounceOwnership => exact Inv.transfer (who := w) (new := none) H h
    | short => cases h
    | unknown => cases h
  | registrar a =>
    cases a with
    | none => cases h
    | some a => exact Inv.create (who := w) H h hr
  | other =>
    cases h
    exact H.acted w

theorem Inv.runAct {c : Cfg} {s s' : St} {w : Acct} {a : Act} (H : Inv c s) (hl : Live c s w)
    (h : runAct c s w a = .ok s') (hr : creations s' + 1 < U128) : Inv c s' := by
  cases a with
  | direct t => exact Inv.evmCall H hl h hr
  | proxied fp t =>
    obtain ⟨_, _, _, _, hf, _, _, h⟩ := evmProxy_ok h
    exact Inv.evmCall H (H.live hf) h hr

theorem Inv.step {c : Cfg} {s s' : St} {op : Op} (H : Inv c s) (hk : NoKey c s op) (h : step c s op = .ok s')
    (hr : creations s' + 1 < U128) : Inv c s' := by
  cases op with
  | call who call => exact Inv.dispatch call H (fun n e => absurd e (hk n)) h (fun _ => hk) hr
  | evm who a => exact Inv.runAct H (fun n e => absurd e (hk n)) h hr
  | contract who m dl a =>
    refine Inv.runAct H ?_ (viaContract_ok h) hr
    intro n e
    split at e
    · exact absurd e (hk n).1
    · exact absurd e (hk n).2
  | block =>
    cases h
    exact H.congr rfl rfl (fun _ => rfl) rfl
  | endow a x =>
    cases h
    exact H.congr rfl rfl (fun _ => rfl) rfl

theorem step_mono {c : Cfg} {s s' : St} {op : Op} (hk : NoKey c s op) (h : step c s op = .ok s') :
    creations s ≤ creations s' := by
  rcases step_cases h (fun who call e => by subst e; exact hk) with h | rfl | ⟨a, x, rfl⟩
  · exact h.mono
  · exact Nat.le_refl _
  · exact Nat.le_refl _

theorem inv {c : Cfg} {g s : St} (h : Reach c (NoKey c) g s) (hr : creations s + 1 < U128) : Inv c s := by
  induction h with
  | init hg =>
    refine ⟨?_, ?_, ?_, ?_, ?_, ?_, ?_, ?_⟩
    · unfold creations
      rw [hg.next, hg.events]
      rfl
    · intro a fp h
      rw [hg.holder a] at h
      cases h
    · intro a b fp h
      rw [hg.holder a] at h
      cases h
    · intro a fp h
      rw [hg.holder a] at h
      cases h
    · intro n d h
      rw [hg.proxies] at h
      exact absurd h (List.not_mem_nil)
    · intro n _
      exact hg.proxies _
    · intro fp a h
      rw [hg.events] at h
      exact absurd h (List.not_mem_nil)
    · rw [hg.events]
      exact List.nodup_nil
  | step _ hk hs ih =>
    have := step_mono hk hs
    exact (ih (by omega)).step hk hs hr

theorem Prim.books {c : Cfg} {s s' : St} (h : Prim c s s') (b : Books c s) : Books c s' := by
  cases h with
  | create who acc h => exact (create_ok h).2.2.2.2.2.2.2.2.2.1 b
  | register who fp d ty dl sig h =>
    obtain ⟨_, _, _, _, _, _, _, _, _, _, _, _, hb, _⟩ := register_ok h
    exact hb b
  | unregister who fp d h =>
    obtain ⟨x, _, _, _, _, _, _, _, _, _, _, _, hb, _⟩ := unregister_ok h
    exact hb b
  | transfer who cur new h =>
    cases new with
    | none =>
      obtain ⟨fp, _, _, _, _, _, _, _, _, _, hb, _⟩ := transfer_none h
      exact hb b
    | some n =>
      obtain ⟨fp, _, _, _, _, _, _, _, _, _, _, _, hb, _⟩ := transfer_some h
      exact hb b
  | add who d _ h => exact addProxy_books h b
  | remove who d _ h => exact removeProxy_books h b
  | clear who _ h => exact setDeposit_books h b List.nodup_nil (fun d hd => absurd hd (List.not_mem_nil))
  | pay who dst x h => exact pay_books h b
  | acted who => exact b.congr rfl rfl rfl rfl

theorem Prim.keeps {c : Cfg} {s s' : St} (h : Prim c s s') : Keeps s s' := by
  cases h with
  | create who acc h => exact (create_ok h).2.2.2.2.2.2.2.2.2.2
  | register who fp d ty dl sig h =>
    obtain ⟨_, _, _, _, _, _, _, _, _, _, _, _, _, hk⟩ := register_ok h
    exact hk
  | unregister who fp d h =>
    obtain ⟨x, _, _, _, _, _, _, _, _, _, _, _, _, hk⟩ := unregister_ok h
    exact hk
  | transfer who cur new h =>
    cases new with
    | none =>
      obtain ⟨fp, _, _, _, _, _, _, _, _, _, _, hk⟩ := transfer_none h
      exact hk
    | some n =>
      obtain ⟨fp, _, _, _, _, _, _, _, _, _, _, _, _, hk⟩ := transfer_some h
      exact hk
  | add who d _ h =>
    obtain ⟨_, _, _, _, _, _, _, _, hk⟩ := setDeposit_ok (addProxy_ok h).2.2.2
    exact hk
  | remove who d _ h =>
    obtain ⟨_, _, _, _, _, _, _, _, hk⟩ := setDeposit_ok (removeProxy_ok h).2
    exact hk
  | clear who _ h =>
    obtain ⟨_, _, _, _, _, _, _, _, hk⟩ := setDeposit_ok h
    exact hk
  | pay who dst x h =>
    obtain ⟨_, _, _, _, _, _, _, hk⟩ := pay_ok h
    exact hk
  | acted who => exact Keeps.congr rfl rfl

theorem Chain.books {c : Cfg} {s s' : St} (h : Chain c s s') (b : Books c s) : Books c s' := by
  induction h with
  | refl => exact b
  | tail _ hp ih => exact hp.books ih

theorem Chain.keeps {c : Cfg} {s s' : St} (h : Chain c s s') : Keeps s s' := by
  induction h with
  | refl => exact Keeps.refl _
  | tail _ hp ih => exact ih.trans hp.keeps

theorem books {c : Cfg} {g s : St} (h : Reach c (NoKey c) g s) : Books c s := by
  induction h with
  | init hg =>
    refine ⟨?_, ?_, ?_, ?_, ?_⟩
    · intro a
      rw [hg.dep, hg.proxies]
      rfl
    · intro a
      rw [hg.dep, hg.reserved]
    · intro a h
      rw [hg.reserved] at h
      omega
    · intro a
      rw [hg.proxies]
      exact List.nodup_nil
    · intro a d h
      rw [hg.proxies] at h
      exact absurd h (List.not_mem_nil)
  | step _ hk hs ih =>
    rcases step_cases hs (fun who call e => by subst e; exact hk) with h | rfl | ⟨a, x, rfl⟩
    · exact h.books ih
    · exact ih.congr rfl rfl rfl rfl
    · refine ⟨ih.dep, ih.reserved, ?_, ih.nodup, ih.self⟩
      intro y hy
      have := ih.alive y hy
      dsimp only
      rw [upd_apply]
      split
      · rename_i e
        rw [e] at this
        omega
      · exact this

end Verif.Futurepass
