import Verif.Door.Safe

/-!
# Orderly handovers keep the door accounts in the hands of the chain's signers
-/

namespace Verif.Door

open Verif.Xrpl (Addr Msg Body)

/-- The signers a handover leads to. -/
def target (c : Cfg) (s : St) : List Key := signersOf c s (s.sched.getD s.next)

def Open (s : St) (r : Req) : Prop := r ∈ s.requests ∧ r.msg.body = .signers ∧ r ∉ s.xl.applied

structure Sy (c : Cfg) (g s : St) : Prop where
  door : s.x.door = g.x.door
  xrpl : s.xrpl = signersOf c s s.keys
  active : s.active = s.xrpl
  due : s.due = true → s.final = true
  once : s.change = true → s.sched = none → s.due = false
  where_ : s.change = true → s.final = true ∨ s.sched ≠ none
  idle : s.change = false → s.sched = none ∧ s.changed = false ∧ (∀ r, ¬ Open s r) ∧
    ∀ d a, s.x.door d = some a → Controls c (s.xl.acct a) s.xrpl
  busy : s.change = true →
    (∀ r, Open s r → r.list = (target c s).map c.addr ∧ r.quorum = (target c s).length - 1) ∧
    ∀ d a, s.x.door d = some a → Controls c (s.xl.acct a) (target c s) ∨ ∃ r, Open s r ∧ r.msg.src = a

theorem Controls.perm {c : Cfg} {A : Account} {k k' : List Key} (h : Controls c A k) (hp : k'.Perm k) : Controls c A k' :=
  ⟨h.1.trans (hp.symm.map _), by rw [h.2, hp.length_eq]⟩

theorem AllApplied.not_open {s : St} (h : AllApplied s) (r : Req) : ¬ Open s r := fun ho => ho.2.2 (h r ho.1 ho.2.1)

/-- The handover asks for new signers. -/
theorem Sy.ask {c : Cfg} {g s : St} {bad D : Addr → Bool} (h : Sy c g s) (hs : Safe bad D s) (hn : s.sched = none)
    (hc : CanAsk c s) : (askLists c s).x.door = g.x.door ∧
    (∀ r, Open (askLists c s) r → r.list = (signersOf c s s.next).map c.addr ∧ r.quorum = (signersOf c s s.next).length - 1) ∧
    ∀ d a, g.x.door d = some a → Controls c (s.xl.acct a) (signersOf c s s.next) ∨
      ∃ r, Open (askLists c s) r ∧ r.msg.src = a := by
  have ht : target c s = signersOf c s s.next := by unfold target; rw [hn]; rfl
  obtain ⟨x', l, e, e1, e2, e3, e4, e5⟩ := askLists_eq c s
  rw [e]
  have mem : ∀ r, Open (plus s x' l) r ↔ (r ∈ s.requests ++ l) ∧ r.msg.body = .signers ∧ r ∉ s.xl.applied := fun r => Iff.rfl
  refine ⟨e1.trans h.door, fun r hr => ?_, fun d a hd => ?_⟩
  · rw [mem] at hr
    rcases List.mem_append.mp hr.1 with h1 | h1
    · cases hch : s.change
      · exact absurd ⟨h1, hr.2.1, hr.2.2⟩ ((h.idle hch).2.2.1 r)
      · rw [← ht]
        exact (h.busy hch).1 r ⟨h1, hr.2.1, hr.2.2⟩
    · exact ⟨(e3 r h1).2.1, (e3 r h1).2.2⟩
  · rw [← h.door] at hd
    by_cases hp : (signersOf c s s.next).Perm s.xrpl
    · cases hch : s.change
      · exact Or.inl (((h.idle hch).2.2.2 d a hd).perm hp)
      · rcases (h.busy hch).2 d a hd with h1 | ⟨r, hr, ha⟩
        · rw [ht] at h1
          exact Or.inl h1
        · exact Or.inr ⟨r, (mem r).mpr ⟨List.mem_append_left _ hr.1, hr.2⟩, ha⟩
    · obtain ⟨g1, g2⟩ := e5 hc hp
      obtain ⟨r, hr, ha⟩ := g1 d a hd
      refine Or.inr ⟨r, (mem r).mpr ⟨List.mem_append_right _ hr, (e3 r hr).1, fun happ => ?_⟩, ha⟩
      have := (hs.used r happ).1
      rw [g2 r hr] at this
      cases this

theorem Sy.relay {c : Cfg} {g s : St} {bad D : Addr → Bool} {r : Req} {who : List Addr} {X' : Xl} (h : Sy c g s)
    (hs : Safe bad D s) (hD : ∀ d a, g.x.door d = some a → D a = true) (hh : Honest c bad s (.relay r who))
    (hr : relay s.xl r who = .ok X') : Sy c g { s with xl := X' } := by
  have hreq := fun hd => (relay_requested hs hh hd hr).1
  obtain ⟨h1, h2, h3, h4, h5, h6, h7, h8, h9, h10⟩ := relay_ok hr
  have hnew : r ∉ s.xl.applied := by
    intro hm
    rw [(hs.used r hm).1] at h4
    cases h4
  have op : ∀ r', Open { s with xl := X' } r' ↔ Open s r' ∧ r' ≠ r := by
    intro r'
    unfold Open
    dsimp only
    rw [h5, List.mem_append, List.mem_singleton]
    tauto
  -- the account of a door: either this transaction has changed its list or the list is as before
  have key : ∀ d a, s.x.door d = some a →
      (a = r.msg.src ∧ r.msg.body = .signers ∧ Open s r ∧ (X'.acct a).list = r.list ∧ (X'.acct a).quorum = r.quorum) ∨
      ((X'.acct a).list = (s.xl.acct a).list ∧ (X'.acct a).quorum = (s.xl.acct a).quorum ∧
        ¬ (a = r.msg.src ∧ r.msg.body = .signers)) := by
    intro d a hd
    by_cases e : a = r.msg.src
    · subst e
      by_cases hb : r.msg.body = .signers
      · rw [h.door] at hd
        exact Or.inl ⟨rfl, hb, ⟨hreq (hD d _ hd), hb, hnew⟩, (h9 hb).2.1, (h9 hb).2.2⟩
      · exact Or.inr ⟨(h10 hb).1, (h10 hb).2, fun e => hb e.2⟩
    · exact Or.inr ⟨by rw [h6 a e], by rw [h6 a e], fun e' => e e'.1⟩
  refine ⟨h.door, h.xrpl, h.active, h.due, h.once, h.where_, fun hc => ?_, fun hc => ?_⟩
  · obtain ⟨i1, i2, i3, i4⟩ := h.idle hc
    refine ⟨i1, i2, fun r' hr' => i3 r' ((op r').mp hr').1, fun d a hd => ?_⟩
    rcases key d a hd with ⟨_, _, ho, _⟩ | ⟨e1, e2, _⟩
    · exact absurd ho (i3 r)
    · show (X'.acct a).list.Perm _ ∧ _
      rw [e1, e2]
      exact i4 d a hd
  · obtain ⟨b1, b2⟩ := h.busy hc
    refine ⟨fun r' hr' => b1 r' ((op r').mp hr').1, fun d a hd => ?_⟩
    rcases key d a hd with ⟨_, _, ho, e1, e2⟩ | ⟨e1, e2, e3⟩
    · left
      show (X'.acct a).list.Perm _ ∧ (X'.acct a).quorum = _
      rw [e1, e2, (b1 r ho).1, (b1 r ho).2]
      exact ⟨List.Perm.refl _, rfl⟩
    · rcases b2 d a hd with g1 | ⟨r', hr', ha⟩
      · left
        show (X'.acct a).list.Perm _ ∧ (X'.acct a).quorum = _
        rw [e1, e2]
        exact g1
      · refine Or.inr ⟨r', (op r').mpr ⟨hr', fun e => e3 ?_⟩, ha⟩
        subst e
        exact ⟨ha.symm, hr'.2.1⟩

/-- The handover is completed. -/
theorem Sy.finalise {c : Cfg} {g s : St} (h : Sy c g s) (hc : s.change = true) (ha : AllApplied s) :
    ∀ d a, s.x.door d = some a → Controls c (s.xl.acct a) (target c s) := by
  intro d a hd
  rcases (h.busy hc).2 d a hd with h1 | ⟨r, hr, _⟩
  · exact h1
  · exact absurd hr (ha.not_open r)

theorem Sy.step {c : Cfg} {g s s' : St} {bad D : Addr → Bool} {op : Op} (h : Sy c g s) (hs : Safe bad D s)
    (hD : ∀ d a, g.x.door d = some a → D a = true) (hh : Honest c bad s op) (ho : Orderly c s op)
    (he : Door.step c s op = .ok s') : Sy c g s' := by
  cases op with
  | x op =>
    simp only [Door.step, bind_ok, ensure_ok, pure_ok] at he
    obtain ⟨_, hn, x', hx, rfl⟩ := he
    obtain ⟨⟨new, e, hb⟩, hd⟩ := xstep_grow hn hx
    have hd' : x'.door = s.x.door := hd (fun d a e => by subst e; exact ho)
    rw [post_eq e]
    have op' : ∀ r, Open (plus s x' (new.map (fun m => (⟨m, [], 0⟩ : Req)))) r ↔ Open s r := by
      intro r
      show (r ∈ s.requests ++ _ ∧ _) ↔ _
      constructor
      · rintro ⟨h1, h2⟩
        rcases List.mem_append.mp h1 with h3 | h3
        · exact ⟨h3, h2⟩
        · obtain ⟨m, hm, rfl⟩ := List.mem_map.mp h3
          exact absurd h2.1 (hb m hm)
      · rintro ⟨h1, h2⟩
        exact ⟨List.mem_append_left _ h1, h2⟩
    refine ⟨hd'.trans h.door, h.xrpl, h.active, h.due, h.once, h.where_, fun hc => ?_, fun hc => ?_⟩
    · obtain ⟨i1, i2, i3, i4⟩ := h.idle hc
      refine ⟨i1, i2, fun r hr => i3 r ((op' r).mp hr), fun d a hda => i4 d a ?_⟩
      rw [← hd']; exact hda
    · obtain ⟨b1, b2⟩ := h.busy hc
      refine ⟨fun r hr => b1 r ((op' r).mp hr), fun d a hda => ?_⟩
      have hda' : s.x.door d = some a := by rw [← hd']; exact hda
      rcases b2 d a hda' with h1 | ⟨r, hr, ha⟩
      · exact Or.inl h1
      · exact Or.inr ⟨r, (op' r).mpr hr, ha⟩
  | whitelist l => exact absurd ho (by simp [Orderly])
  | pause b => cases he; exact ⟨h.door, h.xrpl, h.active, h.due, h.once, h.where_, h.idle, h.busy⟩
  | change eth =>
    simp only [Door.step, bind_ok, ensure_ok, pure_ok] at he
    obtain ⟨_, hdue, rfl⟩ := he
    obtain ⟨hn, hca⟩ := ho
    obtain ⟨a1, a2, a3⟩ := h.ask hs hn hca
    obtain ⟨x', l, e, -⟩ := askLists_eq c s
    have ht : target c (handleChange c s eth) = signersOf c s s.next := by
      unfold target handleChange
      rw [e]
      show signersOf c s (s.sched.getD s.next) = _
      rw [hn]; rfl
    have hxl : (handleChange c s eth).xl = s.xl := by unfold handleChange; rw [e]; rfl
    refine ⟨a1, ?_, ?_, fun hf => (by cases hf), fun _ _ => rfl, fun _ => Or.inl ?_, fun hc => (by cases hc), fun _ => ⟨?_, ?_⟩⟩
    · unfold handleChange; rw [e]; exact h.xrpl
    · unfold handleChange; rw [e]; exact h.active
    · unfold handleChange; rw [e]; exact h.due hdue
    · rw [ht]; exact a2
    · rw [ht, hxl]
      intro d a hd
      have : (askLists c s).x.door d = some a := hd
      rw [a1] at this
      exact a3 d a this
  | rotate q f eth =>
    cases he
    obtain ⟨hn, ho1, ho2⟩ := ho
    have hidle : s.change = false → s.changed = false := fun hc => (h.idle hc).2.1
    unfold rotate ending
    cases hf : s.final with
    | false =>
      have hch : s.change = false := by
        cases hc : s.change
        · rfl
        · rcases h.where_ hc with h1 | h1
          · rw [hf] at h1; cases h1
          · exact absurd hn h1
      have hdu : s.due = false := by
        cases hc : s.due
        · rfl
        · have := h.due hc
          rw [hf] at this; cases this
      refine ⟨h.door, h.xrpl, h.active, ?_, ?_, ?_, ?_, ?_⟩
      · show (s.due || f) = true → f = true
        rw [hdu, Bool.false_or]; exact id
      · intro hc; exact absurd (hch.symm.trans hc) (by simp)
      · intro hc; exact absurd (hch.symm.trans hc) (by simp)
      · intro _; exact h.idle hch
      · intro hc; exact absurd (hch.symm.trans hc) (by simp)
    | true =>
      cases hg : s.changed with
      | true =>
        have hch : s.change = true := by
          cases hc : s.change
          · rw [hidle hc] at hg; cases hg
          · rfl
        have hall := ho1 hf hg
        have hcon := h.finalise hch hall
        have ht : target c s = signersOf c s s.next := by unfold target; rw [hn]; rfl
        refine ⟨h.door, rfl, rfl, ?_, fun hc => (by cases hc), fun hc => (by cases hc), fun _ => ⟨hn, rfl, hall.not_open, ?_⟩,
          fun hc => (by cases hc)⟩
        · show (s.due || f) = true → f = true
          rw [h.once hch hn, Bool.false_or]; exact id
        · show ∀ d a, s.x.door d = some a → Controls c (s.xl.acct a) (signersOf c s s.next)
          rw [← ht]
          exact hcon
      | false =>
        obtain ⟨a1, a2, a3⟩ := h.ask hs hn (ho2 hf hg)
        obtain ⟨x', l, e, -⟩ := askLists_eq c s
        refine ⟨a1, ?_, ?_, ?_, fun _ hc => (by cases hc), fun _ => Or.inr (by simp), fun hc => (by cases hc), fun _ => ⟨?_, ?_⟩⟩
        · show (askLists c s).xrpl = signersOf c (askLists c s) (askLists c s).keys
          rw [e]; exact h.xrpl
        · show (askLists c s).active = (askLists c s).xrpl
          rw [e]; exact h.active
        · show (false || f) = true → f = true
          rw [Bool.false_or]; exact id
        · show ∀ r, Open (askLists c s) r → r.list = (signersOf c (askLists c s) s.next).map c.addr ∧
            r.quorum = (signersOf c (askLists c s) s.next).length - 1
          rw [show signersOf c (askLists c s) s.next = signersOf c s s.next by rw [e]; rfl]
          exact a2
        · show ∀ d a, (askLists c s).x.door d = some a →
            Controls c ((askLists c s).xl.acct a) (signersOf c (askLists c s) s.next) ∨ ∃ r, Open (askLists c s) r ∧ r.msg.src = a
          rw [show signersOf c (askLists c s) s.next = signersOf c s s.next by rw [e]; rfl,
            show (askLists c s).xl = s.xl by rw [e]; rfl, a1]
          exact a3
  | finalise =>
    simp only [Door.step, bind_ok, okOr_ok, pure_ok] at he
    obtain ⟨keys, hk, rfl⟩ := he
    have hch : s.change = true := by
      cases hc : s.change
      · rw [(h.idle hc).1] at hk; cases hk
      · rfl
    have hcon := h.finalise hch ho
    have ht : target c s = signersOf c s keys := by unfold target; rw [hk]; rfl
    refine ⟨h.door, rfl, rfl, h.due, fun hc => (by cases hc), fun hc => (by cases hc), fun _ => ⟨rfl, rfl, ho.not_open, ?_⟩,
      fun hc => (by cases hc)⟩
    show ∀ d a, s.x.door d = some a → Controls c (s.xl.acct a) (signersOf c s keys)
    rw [← ht]
    exact hcon
  | release r =>
    simp only [Door.step, release, bind_ok, ensure_ok, pure_ok] at he
    obtain ⟨_, _, _, hr, rfl⟩ := he
    exact ⟨h.door, h.xrpl, h.active, h.due, h.once, h.where_, h.idle, h.busy⟩
  | relay r who =>
    simp only [Door.step, bind_ok, pure_ok] at he
    obtain ⟨X, hX, rfl⟩ := he
    exact h.relay hs hD hh hX
  | ticket a t =>
    simp only [Door.step, bind_ok, pure_ok] at he
    obtain ⟨X, hX, rfl⟩ := he
    obtain ⟨h1, h2, h3, h4, h5⟩ := ticket_ok hX
    have op : ∀ r, Open { s with xl := X } r ↔ Open s r := by
      intro r
      unfold Open
      dsimp only
      rw [h2]
    have con : ∀ b k, Controls c (X.acct b) k ↔ Controls c (s.xl.acct b) k := by
      intro b k
      unfold Controls
      rw [(h3 b).1, (h3 b).2]
    refine ⟨h.door, h.xrpl, h.active, h.due, h.once, h.where_, fun hc => ?_, fun hc => ?_⟩
    · obtain ⟨i1, i2, i3, i4⟩ := h.idle hc
      exact ⟨i1, i2, fun r hr => i3 r ((op r).mp hr), fun d b hd => (con b _).mpr (i4 d b hd)⟩
    · obtain ⟨b1, b2⟩ := h.busy hc
      refine ⟨fun r hr => b1 r ((op r).mp hr), fun d b hd => ?_⟩
      rcases b2 d b hd with g1 | ⟨r, hr, ha⟩
      · exact Or.inl ((con b _).mpr g1)
      · exact Or.inr ⟨r, (op r).mpr hr, ha⟩

/-- Is an address that of a door account. -/
def isDoor (g : St) (a : Addr) : Bool := decide (g.x.door .main = some a) || decide (g.x.door .nft = some a)

theorem isDoor_of {g : St} {d : Xrpl.Door} {a : Addr} (h : g.x.door d = some a) : isDoor g a = true := by
  unfold isDoor
  cases d <;> simp [h]

theorem isDoor_iff {g : St} {a : Addr} : isDoor g a = true ↔ ∃ d, g.x.door d = some a := by
  constructor
  · intro h
    unfold isDoor at h
    rw [Bool.or_eq_true, decide_eq_true_eq, decide_eq_true_eq] at h
    rcases h with h | h
    · exact ⟨_, h⟩
    · exact ⟨_, h⟩
  · rintro ⟨d, h⟩; exact isDoor_of h

theorem Reach.genesis {c : Cfg} {G : St → Op → Prop} {g s : St} (h : Reach c G g s) : Genesis c g := by
  induction h with
  | init hg => exact hg
  | step _ _ _ ih => exact ih

theorem Genesis.sound {c : Cfg} {bad : Addr → Bool} {g : St} (hg : Genesis c g)
    (hb : FewBad bad (g.xrpl.map c.addr) (g.xrpl.length - 1)) : ∀ a, isDoor g a = true → Sound bad g.xl a := by
  intro a ha
  obtain ⟨d, hd⟩ := isDoor_iff.mp ha
  obtain ⟨⟨h1, h2⟩, h3⟩ := hg.doors d a hd
  refine ⟨?_, ?_, h3⟩
  · unfold FewBad
    rw [h2, (h1.filter bad).length_eq]
    exact hb
  · rw [h2, h1.length_eq, List.length_map]

theorem Reach.sy {c : Cfg} {bad : Addr → Bool} {g s : St} (hb : FewBad bad (g.xrpl.map c.addr) (g.xrpl.length - 1))
    (h : Reach c (fun s op => Honest c bad s op ∧ FewNext c bad s op ∧ Orderly c s op) g s) : Sy c g s := by
  have hg := h.genesis
  induction h with
  | init _ =>
    refine ⟨rfl, hg.xrpl, hg.active, fun h => ?_, fun hc => ?_, fun hc => ?_, fun _ => ⟨hg.sched, hg.changed, ?_, ?_⟩, fun hc => ?_⟩
    · rw [← hg.due]; exact h
    · rw [hg.change] at hc; cases hc
    · rw [hg.change] at hc; cases hc
    · rintro r ⟨h1, _⟩
      rw [hg.requests] at h1; cases h1
    · exact fun d a hd => (hg.doors d a hd).1
    · rw [hg.change] at hc; cases hc
  | step hr hG hs ih =>
    exact ih.step (hr.safe (fun _ _ h => ⟨h.1, h.2.1⟩) (hg.sound hb)) (fun d a hd => isDoor_of hd) hG.1 hG.2.2 hs

end Verif.Door
