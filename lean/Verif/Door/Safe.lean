import Verif.Door.Inv
import Mathlib.Data.List.Perm.Subperm

/-!
# Nothing is carried out that was not requested
-/

namespace Verif.Door

open Verif.Xrpl (Addr Msg Body)

structure SafeI (bad D : Addr → Bool) (reqs : List Req) (outbox : List Msg) (proofs : List (Req × List Key))
    (delayed : List Req) (X : Xl) : Prop where
  msgs : reqs.map (fun r => r.msg) = outbox
  proofs : ∀ p ∈ proofs, p.1 ∈ reqs
  delayed : ∀ r ∈ delayed, r ∈ reqs
  nodup : (X.applied.map (fun r => (r.msg.src, r.msg.ticket))).Nodup
  used : ∀ r ∈ X.applied, (X.acct r.msg.src).tickets r.msg.ticket = false ∧ (X.acct r.msg.src).made r.msg.ticket = true
  live : ∀ a t, (X.acct a).tickets t = true → (X.acct a).made t = true
  lists : ∀ r ∈ reqs, r.msg.body = .signers → FewBad bad r.list r.quorum ∧ r.quorum = r.list.length - 1
  few : ∀ a, D a = true → Sound bad X a
  applied : ∀ r ∈ X.applied, D r.msg.src = true → r ∈ reqs

def Safe (bad D : Addr → Bool) (s : St) : Prop := SafeI bad D s.requests s.x.outbox s.proofs s.delayed s.xl

theorem Safe.plus {bad D : Addr → Bool} {s : St} {x' : Xrpl.St} {l : List Req} (h : Safe bad D s)
    (ho : x'.outbox = s.x.outbox ++ l.map (fun r => r.msg))
    (hl : ∀ r ∈ l, r.msg.body = .signers → FewBad bad r.list r.quorum ∧ r.quorum = r.list.length - 1) :
    Safe bad D (plus s x' l) := by
  have inj : ∀ r, r ∈ s.requests → r ∈ s.requests ++ l := fun r hr => List.mem_append_left _ hr
  refine ⟨?_, ?_, ?_, h.nodup, h.used, h.live, ?_, h.few, fun r hr hd => inj r (h.applied r hr hd)⟩
  · show (s.requests ++ l).map _ = x'.outbox
    rw [List.map_append, h.msgs, ho]
  · show ∀ p ∈ (if paused s then s.proofs else s.proofs ++ l.map (fun r => (r, s.active))), p.1 ∈ s.requests ++ l
    intro p hp
    split at hp
    · exact inj _ (h.proofs p hp)
    · rcases List.mem_append.mp hp with h1 | h1
      · exact inj _ (h.proofs p h1)
      · obtain ⟨r, hr, rfl⟩ := List.mem_map.mp h1
        exact List.mem_append_right _ hr
  · show ∀ r ∈ (if paused s then s.delayed ++ l else s.delayed), r ∈ s.requests ++ l
    intro r hr
    split at hr
    · rcases List.mem_append.mp hr with h1 | h1
      · exact inj _ (h.delayed r h1)
      · exact List.mem_append_right _ h1
    · exact inj _ (h.delayed r hr)
  · show ∀ r ∈ s.requests ++ l, _
    intro r hr hb
    rcases List.mem_append.mp hr with h1 | h1
    · exact h.lists r h1 hb
    · exact hl r h1 hb

/-- A transaction that was carried out: its signers, its ticket and its effect. -/
theorem relay_ok {X X' : Xl} {r : Req} {who : List Addr} (h : relay X r who = .ok X') :
    who.Nodup ∧ (∀ a ∈ who, a ∈ (X.acct r.msg.src).list) ∧ (X.acct r.msg.src).quorum ≤ who.length ∧
    (X.acct r.msg.src).tickets r.msg.ticket = true ∧ X'.applied = X.applied ++ [r] ∧
    (∀ a, a ≠ r.msg.src → X'.acct a = X.acct a) ∧
    (X'.acct r.msg.src).tickets = upd (X.acct r.msg.src).tickets r.msg.ticket false ∧
    (X'.acct r.msg.src).made = (X.acct r.msg.src).made ∧
    (r.msg.body = .signers → ValidList r.msg.src r.list r.quorum ∧ (X'.acct r.msg.src).list = r.list ∧
      (X'.acct r.msg.src).quorum = r.quorum) ∧
    (r.msg.body ≠ .signers → (X'.acct r.msg.src).list = (X.acct r.msg.src).list ∧
      (X'.acct r.msg.src).quorum = (X.acct r.msg.src).quorum) := by
  simp only [relay, bind_ok, ensure_ok] at h
  obtain ⟨_, h1, _, h2, _, h3, _, h4, h⟩ := h
  split at h
  · rename_i hb
    simp only [bind_ok, ensure_ok, pure_ok] at h
    obtain ⟨_, hv, rfl⟩ := h
    refine ⟨h1, h2, h3.1, h4, rfl, fun a ha => upd_ne _ _ ha, ?_, ?_, fun _ => ⟨hv, ?_, ?_⟩, fun e => absurd hb e⟩ <;>
      (dsimp only; rw [upd_same])
  · rename_i hb
    simp only [pure_ok] at h
    subst h
    refine ⟨h1, h2, h3.1, h4, rfl, fun a ha => upd_ne _ _ ha, ?_, ?_, fun e => absurd e hb, fun _ => ⟨?_, ?_⟩⟩ <;>
      (dsimp only; rw [upd_same])

/-- Enough signatures need one that is not bad. -/
theorem some_good {bad : Addr → Bool} {l who : List Addr} {q : Nat} (hf : FewBad bad l q) (hn : who.Nodup)
    (hs : ∀ a ∈ who, a ∈ l) (hq : q ≤ who.length) : ∃ a ∈ who, bad a = false := by
  by_contra hc
  push Not at hc
  have hsub : who ⊆ l.filter bad := fun a ha => List.mem_filter.mpr ⟨hs a ha, by
    have := hc a ha
    cases hb : bad a
    · exact absurd hb this
    · rfl⟩
  have := (List.subperm_of_subset hn hsub).length_le
  unfold FewBad at hf
  omega

theorem relay_requested {c : Cfg} {bad D : Addr → Bool} {s : St} {r : Req} {who : List Addr} {X' : Xl} (h : Safe bad D s)
    (hh : Honest c bad s (.relay r who)) (hd : D r.msg.src = true) (hr : relay s.xl r who = .ok X') :
    r ∈ s.requests ∧ ∃ p ∈ s.proofs, p.1 = r := by
  obtain ⟨h1, h2, h3, _⟩ := relay_ok hr
  obtain ⟨a, ha, hb⟩ := some_good (h.few _ hd).1 h1 h2 h3
  rcases hh a ha with hb' | ⟨p, hp, e, _⟩
  · rw [hb] at hb'; cases hb'
  · exact ⟨e ▸ h.proofs p hp, p, hp, e⟩

theorem Safe.relay {c : Cfg} {bad D : Addr → Bool} {s : St} {r : Req} {who : List Addr} {X' : Xl} (h : Safe bad D s)
    (hh : Honest c bad s (.relay r who)) (hr : relay s.xl r who = .ok X') : Safe bad D { s with xl := X' } := by
  have hreq := fun hd => relay_requested h hh hd hr
  obtain ⟨h1, h2, h3, h4, h5, h6, h7, h8, h9, h10⟩ := relay_ok hr
  have used' : ∀ a t, (X'.acct a).tickets t = true → (s.xl.acct a).tickets t = true ∧ ¬ (a = r.msg.src ∧ t = r.msg.ticket) := by
    intro a t ht
    by_cases e : a = r.msg.src
    · subst e
      rw [h7, upd_apply] at ht
      split at ht
      · cases ht
      · rename_i e'; exact ⟨ht, fun e => e' e.2⟩
    · rw [h6 a e] at ht
      exact ⟨ht, fun e' => e e'.1⟩
  have made' : ∀ a, (X'.acct a).made = (s.xl.acct a).made := by
    intro a
    by_cases e : a = r.msg.src
    · subst e; exact h8
    · rw [h6 a e]
  refine ⟨h.msgs, h.proofs, h.delayed, ?_, ?_, ?_, h.lists, ?_, ?_⟩
  · show (X'.applied.map _).Nodup
    rw [h5, List.map_append, List.nodup_append]
    refine ⟨h.nodup, by simp, ?_⟩
    intro p hp q hq e
    obtain ⟨r', hr', rfl⟩ := List.mem_map.mp hp
    simp only [List.map_cons, List.map_nil, List.mem_singleton] at hq
    subst hq
    rw [Prod.mk.injEq] at e
    have := (h.used r' hr').1
    rw [e.1, e.2, h4] at this
    cases this
  · show ∀ r' ∈ X'.applied, _
    intro r' hr'
    rw [h5] at hr'
    constructor
    · cases ht : (X'.acct r'.msg.src).tickets r'.msg.ticket
      · rfl
      · obtain ⟨g1, g2⟩ := used' _ _ ht
        rcases List.mem_append.mp hr' with h0 | h0
        · rw [(h.used r' h0).1] at g1; cases g1
        · rw [List.mem_singleton] at h0
          subst h0
          exact absurd ⟨rfl, rfl⟩ g2
    · rw [made']
      rcases List.mem_append.mp hr' with h0 | h0
      · exact (h.used r' h0).2
      · rw [List.mem_singleton] at h0
        subst h0
        exact h.live _ _ h4
  · intro a t ht
    show (X'.acct a).made t = true
    rw [made']
    exact h.live _ _ (used' a t ht).1
  · show ∀ a, D a = true → Sound bad X' a
    intro a hd
    unfold Sound
    by_cases e : a = r.msg.src
    · subst e
      by_cases hb : r.msg.body = .signers
      · rw [(h9 hb).2.1, (h9 hb).2.2]
        exact ⟨(h.lists r (hreq hd).1 hb).1, (h.lists r (hreq hd).1 hb).2, (h9 hb).1⟩
      · rw [(h10 hb).1, (h10 hb).2]
        exact h.few _ hd
    · rw [h6 a e]
      exact h.few _ hd
  · show ∀ r' ∈ X'.applied, _
    intro r' hr' hd
    rw [h5] at hr'
    rcases List.mem_append.mp hr' with h0 | h0
    · exact h.applied r' h0 hd
    · rw [List.mem_singleton] at h0
      subst h0
      exact (hreq hd).1

theorem ticket_ok {X X' : Xl} {a : Addr} {t : Nat} (h : ticket X a t = .ok X') : (X.acct a).made t = false ∧
    X'.applied = X.applied ∧ (∀ b, (X'.acct b).list = (X.acct b).list ∧ (X'.acct b).quorum = (X.acct b).quorum) ∧
    (∀ b u, ¬ (b = a ∧ u = t) → (X'.acct b).tickets u = (X.acct b).tickets u ∧ (X'.acct b).made u = (X.acct b).made u) ∧
    (X'.acct a).made t = true := by
  simp only [ticket, bind_ok, ensure_ok, pure_ok] at h
  obtain ⟨_, h1, rfl⟩ := h
  refine ⟨h1, rfl, fun b => ?_, fun b u hn => ?_, ?_⟩
  · dsimp only
    rw [upd_apply]
    split
    · rename_i e; subst e; exact ⟨rfl, rfl⟩
    · exact ⟨rfl, rfl⟩
  · dsimp only
    rw [upd_apply]
    split
    · rename_i e
      subst e
      have : u ≠ t := fun e => hn ⟨rfl, e⟩
      dsimp only
      rw [upd_ne _ _ this, upd_ne _ _ this]
      exact ⟨rfl, rfl⟩
    · exact ⟨rfl, rfl⟩
  · dsimp only
    rw [upd_same]
    dsimp only
    rw [upd_same]

theorem Safe.ticket {bad D : Addr → Bool} {s : St} {a : Addr} {t : Nat} {X' : Xl} (h : Safe bad D s)
    (hr : ticket s.xl a t = .ok X') : Safe bad D { s with xl := X' } := by
  obtain ⟨h1, h2, h3, h4, h5⟩ := ticket_ok hr
  have old : ∀ r ∈ s.xl.applied, ¬ (r.msg.src = a ∧ r.msg.ticket = t) := by
    intro r hr e
    have := (h.used r hr).2
    rw [e.1, e.2, h1] at this
    cases this
  refine ⟨h.msgs, h.proofs, h.delayed, ?_, ?_, ?_, h.lists, ?_, ?_⟩
  · show (X'.applied.map _).Nodup
    rw [h2]; exact h.nodup
  · show ∀ r ∈ X'.applied, (X'.acct _).tickets _ = _ ∧ (X'.acct _).made _ = _
    intro r hr
    rw [h2] at hr
    rw [(h4 _ _ (old r hr)).1, (h4 _ _ (old r hr)).2]
    exact h.used r hr
  · show ∀ b u, (X'.acct b).tickets u = true → (X'.acct b).made u = true
    intro b u hu
    by_cases e : b = a ∧ u = t
    · rw [e.1, e.2]; exact h5
    · rw [(h4 b u e).1] at hu
      rw [(h4 b u e).2]
      exact h.live _ _ hu
  · intro b hd
    show Sound bad X' b
    unfold Sound
    rw [(h3 b).1, (h3 b).2]
    exact h.few b hd
  · show ∀ r ∈ X'.applied, _
    rw [h2]; exact h.applied

theorem Safe.ask {c : Cfg} {bad D : Addr → Bool} {s : St} (h : Safe bad D s)
    (hf : FewBad bad ((signersOf c s s.next).map c.addr) ((signersOf c s s.next).length - 1)) : Safe bad D (askLists c s) := by
  obtain ⟨x', l, e, _, ho, hl, _⟩ := askLists_eq c s
  rw [e]
  refine h.plus ho fun r hr _ => ?_
  rw [(hl r hr).2.1, (hl r hr).2.2, List.length_map]
  exact ⟨hf, rfl⟩

theorem Safe.step {c : Cfg} {bad D : Addr → Bool} {s s' : St} {op : Op} (h : Safe bad D s) (hh : Honest c bad s op)
    (hf : FewNext c bad s op) (hs : Door.step c s op = .ok s') : Safe bad D s' := by
  cases op with
  | x op =>
    simp only [Door.step, bind_ok, ensure_ok, pure_ok] at hs
    obtain ⟨_, hn, x', hx, rfl⟩ := hs
    obtain ⟨⟨new, ho, hb⟩, _⟩ := xstep_grow hn hx
    rw [post_eq ho]
    refine h.plus (by rw [ho, List.map_map]; simp [Function.comp_def]) fun r hr hb' => ?_
    obtain ⟨m, hm, rfl⟩ := List.mem_map.mp hr
    exact absurd hb' (hb m hm)
  | whitelist l =>
    simp only [Door.step, whitelist, bind_ok, ensure_ok, pure_ok] at hs
    obtain ⟨_, _, rfl⟩ := hs
    exact h
  | pause b => cases hs; exact h
  | change eth =>
    simp only [Door.step, bind_ok, ensure_ok, pure_ok] at hs
    obtain ⟨_, _, rfl⟩ := hs
    have := Safe.ask h hf
    exact this
  | rotate q f eth =>
    cases hs
    unfold rotate ending
    split
    · split
      · exact h
      · have := Safe.ask h hf
        exact this
    · exact h
  | finalise =>
    simp only [Door.step, bind_ok, okOr_ok, pure_ok] at hs
    obtain ⟨_, _, rfl⟩ := hs
    exact h
  | release r =>
    simp only [Door.step, release, bind_ok, ensure_ok, pure_ok] at hs
    obtain ⟨_, _, _, hr, rfl⟩ := hs
    refine ⟨h.msgs, ?_, fun r' hr' => h.delayed r' (List.mem_of_mem_erase hr'), h.nodup, h.used, h.live, h.lists, h.few,
      h.applied⟩
    intro p hp
    rcases List.mem_append.mp hp with h1 | h1
    · exact h.proofs p h1
    · rw [List.mem_singleton] at h1
      subst h1
      exact h.delayed r hr
  | relay r who =>
    simp only [Door.step, bind_ok, pure_ok] at hs
    obtain ⟨X, hX, rfl⟩ := hs
    exact h.relay hh hX
  | ticket a t =>
    simp only [Door.step, bind_ok, pure_ok] at hs
    obtain ⟨X, hX, rfl⟩ := hs
    exact h.ticket hX

theorem Reach.safe {c : Cfg} {bad D : Addr → Bool} {G : St → Op → Prop} {g s : St}
    (hG : ∀ s op, G s op → Honest c bad s op ∧ FewNext c bad s op)
    (hD : ∀ a, D a = true → Sound bad g.xl a) (h : Reach c G g s) : Safe bad D s := by
  induction h with
  | init hg =>
    refine ⟨?_, ?_, ?_, ?_, ?_, hg.tickets, ?_, hD, ?_⟩
    · rw [hg.requests, hg.x.outbox]; rfl
    · rw [hg.proofs]; simp
    · rw [hg.delayed]; simp
    · rw [hg.applied]; simp
    · rw [hg.applied]; simp
    · rw [hg.requests]; simp
    · rw [hg.applied]; simp
  | step _ hg hs ih => exact ih.step (hG _ _ hg).1 (hG _ _ hg).2 hs

end Verif.Door
