import Verif.Futurepass.Props

/-! # Futurepass: what readers of the events know

The specification comes first: `Picture` is what a reader writes down, `follow` is how they change it on an event. -/

namespace Verif.Futurepass

open Demo

/-- What a reader of the events writes down: which futurepass an account holds, and whether an account is a delegate
of a futurepass. -/
structure Picture where
  holds : Acct → Option Acct
  delegate : Acct → Acct → Bool

/-- Before anything happened. -/
def nothing : Picture where
  holds := fun _ => none
  delegate := fun _ _ => false

/-- What a reader makes of one event. A new futurepass is held by the account named, its delegate. A transfer leaves
the new owner alone, or nobody if there is none. -/
def follow (p : Picture) : Ev → Picture
  | .created fp o =>
    { p with
      holds := upd p.holds o (some fp)
      delegate := upd p.delegate fp (upd (p.delegate fp) o true) }
  | .registered fp d => { p with delegate := upd p.delegate fp (upd (p.delegate fp) d true) }
  | .unregistered fp d => { p with delegate := upd p.delegate fp (upd (p.delegate fp) d false) }
  | .transferred old (some n) fp =>
    { p with
      holds := upd (upd p.holds old none) n (some fp)
      delegate := upd p.delegate fp (upd (fun _ => false) n true) }
  | .transferred old none fp =>
    { p with
      holds := upd p.holds old none
      delegate := upd p.delegate fp (fun _ => false) }
  | .acted _ => p

/-- The picture after all events so far, from the oldest to the newest. -/
def picture (s : St) : Picture := s.events.reverse.foldl follow nothing

theorem picture_cons {s s' : St} {e : Ev} (h : s'.events = e :: s.events) : picture s' = follow (picture s) e := by
  unfold picture
  rw [h, List.reverse_cons, List.foldl_append]
  rfl

theorem picture_same {s s' : St} (h : s'.events = s.events) : picture s' = picture s := by
  unfold picture
  rw [h]

/-- The picture is right, and entries of futurepass addresses are of the two kinds. -/
structure Right (c : Cfg) (s : St) : Prop where
  books : Books c s
  holds : (picture s).holds = s.holder
  delegate : ∀ n w, (picture s).delegate (c.addr n) w = true ↔ IsDelegate s (c.addr n) w
  own : ∀ n, ∀ d ∈ s.proxies (c.addr n), d.delay = 0 ∧ (d.ty = .owner ∧ s.holder d.who = some (c.addr n) ∨ d.ty = .any)

theorem isDelegate_congr {s s' : St} {fp w : Acct} (h : s'.proxies fp = s.proxies fp) :
    IsDelegate s' fp w ↔ IsDelegate s fp w := by
  unfold IsDelegate
  rw [h]

theorem isDelegate_insert {s s' : St} {fp w : Acct} {d : Def} (h : s'.proxies fp = insertDef d (s.proxies fp)) :
    IsDelegate s' fp w ↔ w = d.who ∨ IsDelegate s fp w := by
  unfold IsDelegate
  rw [h]
  simp only [mem_insertDef]
  constructor
  · rintro ⟨x, rfl | hx, rfl⟩
    · exact .inl rfl
    · exact .inr ⟨x, hx, rfl⟩
  · rintro (rfl | ⟨x, hx, rfl⟩)
    · exact ⟨d, .inl rfl, rfl⟩
    · exact ⟨x, .inr hx, rfl⟩

/-- The rest of the state does not matter. -/
theorem Right.quiet {c : Cfg} {s s' : St} (R : Right c s) (b : Books c s') (h1 : s'.holder = s.holder)
    (h2 : picture s' = picture s) (h3 : ∀ n, s'.proxies (c.addr n) = s.proxies (c.addr n)) : Right c s' := by
  refine ⟨b, by rw [h1, h2]; exact R.holds, ?_, ?_⟩
  · intro n w
    rw [h2, isDelegate_congr (h3 n)]
    exact R.delegate n w
  · intro n
    rw [h1, h3]
    exact R.own n

theorem Right.prim {c : Cfg} {s s' : St} (R : Right c s) (h : Prim c s s') : Right c s' := by
  have b := h.books R.books
  cases h with
  | create who acc h =>
    obtain ⟨h1, _, _, h2, _, h3, h4, _⟩ := create_ok h
    have hp := picture_cons h3
    refine ⟨b, ?_, ?_, ?_⟩
    · rw [hp, h2, ← R.holds]
      rfl
    · intro n w
      rw [hp]
      simp only [follow]
      by_cases e : c.addr n = c.addr s.next
      · rw [e, upd_same, isDelegate_insert (s := s) (d := ⟨acc, .owner, 0⟩) (by rw [h4, upd_same]), upd_apply]
        have := R.delegate s.next w
        split <;> simp_all
      · rw [upd_ne _ _ e, isDelegate_congr (s := s) (by rw [h4, upd_ne _ _ e])]
        exact R.delegate n w
    · intro n d hd
      rw [h4, upd_apply] at hd
      have old : d ∈ s.proxies (c.addr n) → d.delay = 0 ∧
          (d.ty = .owner ∧ s'.holder d.who = some (c.addr n) ∨ d.ty = .any) := by
        intro hd
        obtain ⟨k1, k2⟩ := R.own n d hd
        refine ⟨k1, k2.imp_left fun k => ⟨k.1, ?_⟩⟩
        rw [h2, upd_ne]
        · exact k.2
        · intro e
          rw [e, h1] at k
          cases k.2
      split at hd
      · rename_i e
        rw [← e] at hd
        rcases mem_insertDef.mp hd with rfl | hd
        · exact ⟨rfl, .inl ⟨rfl, by rw [h2, upd_same, e]⟩⟩
        · exact old hd
      · exact old hd
  | register who fp d ty dl sig h =>
    obtain ⟨_, h0, _, _, _, _, _, h2, _, h3, h4, _⟩ := register_ok h
    have hp := picture_cons h3
    refine ⟨b, ?_, ?_, ?_⟩
    · rw [hp, h2, ← R.holds]
      rfl
    · intro n w
      rw [hp]
      simp only [follow]
      by_cases e : c.addr n = fp
      · subst e
        rw [upd_same, isDelegate_insert (s := s) (d := ⟨d, ty, 0⟩) (by rw [h4, upd_same]), upd_apply]
        have := R.delegate n w
        split <;> simp_all
      · rw [upd_ne _ _ e, isDelegate_congr (s := s) (by rw [h4, upd_ne _ _ e])]
        exact R.delegate n w
    · intro n x hx
      rw [h4, upd_apply] at hx
      rw [h2]
      split at hx
      · rename_i e
        rw [← e] at hx
        rcases mem_insertDef.mp hx with rfl | hx
        · exact ⟨rfl, .inr h0⟩
        · exact R.own n x hx
      · exact R.own n x hx
  | unregister who fp d h =>
    obtain ⟨x, _, hx, hd, _, _, h2, _, h3, h4, _⟩ := unregister_ok h
    have hp := picture_cons h3
    refine ⟨b, ?_, ?_, ?_⟩
    · rw [hp, h2, ← R.holds]
      rfl
    · intro n w
      rw [hp]
      simp only [follow]
      by_cases e : c.addr n = fp
      · subst e
        rw [upd_same, upd_apply]
        have one : ∀ y ∈ s.proxies (c.addr n), y.who = d → y = ⟨d, .any, 0⟩ := by
          intro y hy e
          obtain ⟨k1, k2⟩ := R.own n y hy
          rcases k2 with ⟨_, k2⟩ | k2
          · rw [e] at k2
            exact absurd k2 hd
          · cases y
            cases k1
            cases k2
            cases e
            rfl
        have e1 := one _ hx rfl
        have hn := R.books.nodup (c.addr n)
        split
        · rename_i ew
          subst ew
          simp only [Bool.false_eq_true, false_iff]
          rintro ⟨y, hy, e2⟩
          rw [h4, upd_same, hn.mem_erase_iff] at hy
          exact hy.1 ((one y hy.2 e2).trans e1.symm)
        · rename_i ew
          rw [R.delegate n w]
          constructor
          · rintro ⟨y, hy, e2⟩
            refine ⟨y, ?_, e2⟩
            rw [h4, upd_same, hn.mem_erase_iff]
            exact ⟨fun e3 => ew (by rw [← e2, e3]), hy⟩
          · rintro ⟨y, hy, e2⟩
            rw [h4, upd_same] at hy
            exact ⟨y, List.mem_of_mem_erase hy, e2⟩
      · rw [upd_ne _ _ e, isDelegate_congr (s := s) (by rw [h4, upd_ne _ _ e])]
        exact R.delegate n w
    · intro n y hy
      rw [h4, upd_apply] at hy
      rw [h2]
      split at hy
      · rename_i e
        rw [← e] at hy
        exact R.own n y (List.mem_of_mem_erase hy)
      · exact R.own n y hy
  | transfer who cur new h =>
    cases new with
    | some m =>
      obtain ⟨fp, h0, _, h1, _, _, _, h2, _, h3, h4, h5, _⟩ := transfer_some h
      have hp := picture_cons h3
      refine ⟨b, ?_, ?_, ?_⟩
      · rw [hp, h2, ← R.holds]
        rfl
      · intro n w
        rw [hp]
        simp only [follow]
        by_cases e : c.addr n = fp
        · subst e
          rw [upd_same, upd_apply]
          have : IsDelegate s' (c.addr n) w ↔ w = m := by
            constructor
            · rintro ⟨d, hd, rfl⟩
              exact ((h5 d).mp hd).1
            · rintro rfl
              exact ⟨_, (h5 _).mpr ⟨rfl, .inl rfl⟩, rfl⟩
          rw [this]
          split <;> simp_all
        · rw [upd_ne _ _ e, isDelegate_congr (h4 _ e)]
          exact R.delegate n w
      · intro n d hd
        by_cases e : c.addr n = fp
        · subst e
          obtain ⟨k1, rfl | k2⟩ := (h5 d).mp hd
          · exact ⟨rfl, .inl ⟨rfl, by rw [h2, upd_same]⟩⟩
          · obtain ⟨k3, k4⟩ := R.own n d k2
            exact ⟨k3, k4.imp_left fun k => ⟨k.1, by rw [k1, h2, upd_same]⟩⟩
        · rw [h4 _ e] at hd
          obtain ⟨k1, k2⟩ := R.own n d hd
          refine ⟨k1, k2.imp_left fun k => ⟨k.1, ?_⟩⟩
          have hc : d.who ≠ cur := by
            intro e2
            rw [e2, h0] at k
            exact e (Option.some.inj k.2).symm
          have hm : d.who ≠ m := by
            intro e2
            rw [← e2, upd_ne _ _ hc, k.2] at h1
            cases h1
          rw [h2, upd_ne _ _ hm, upd_ne _ _ hc]
          exact k.2
    | none =>
      obtain ⟨fp, h0, _, _, h2, _, h3, h4, _⟩ := transfer_none h
      have hp := picture_cons h3
      refine ⟨b, ?_, ?_, ?_⟩
      · rw [hp, h2, ← R.holds]
        rfl
      · intro n w
        rw [hp]
        simp only [follow]
        by_cases e : c.addr n = fp
        · subst e
          rw [upd_same]
          simp only [Bool.false_eq_true, false_iff]
          rintro ⟨y, hy, _⟩
          rw [h4, upd_same] at hy
          exact absurd hy List.not_mem_nil
        · rw [upd_ne _ _ e, isDelegate_congr (s := s) (by rw [h4, upd_ne _ _ e])]
          exact R.delegate n w
      · intro n d hd
        by_cases e : c.addr n = fp
        · rw [h4, e, upd_same] at hd
          exact absurd hd List.not_mem_nil
        · rw [h4, upd_ne _ _ e] at hd
          obtain ⟨k1, k2⟩ := R.own n d hd
          refine ⟨k1, k2.imp_left fun k => ⟨k.1, ?_⟩⟩
          rw [h2, upd_ne]
          · exact k.2
          · intro e2
            rw [e2, h0] at k
            exact e (Option.some.inj k.2).symm
  | add who d hw h =>
    obtain ⟨⟨_, c2, _, c4⟩, e1, _⟩ := setDeposit_ok (addProxy_ok h).2.2.2
    exact R.quiet b c2 (picture_same c4) (fun n => by rw [e1, upd_ne _ _ (fun e => hw n e.symm)])
  | remove who d hw h =>
    obtain ⟨⟨_, c2, _, c4⟩, e1, _⟩ := setDeposit_ok (removeProxy_ok h).2
    exact R.quiet b c2 (picture_same c4) (fun n => by rw [e1, upd_ne _ _ (fun e => hw n e.symm)])
  | clear who hw h =>
    obtain ⟨⟨_, c2, _, c4⟩, e1, _⟩ := setDeposit_ok h
    exact R.quiet b c2 (picture_same c4) (fun n => by rw [e1, upd_ne _ _ (fun e => hw n e.symm)])
  | pay who dst x h =>
    obtain ⟨⟨_, c2, _, c4⟩, e1, _⟩ := pay_ok h
    exact R.quiet b c2 (picture_same c4) (fun n => by rw [e1])
  | acted who =>
    exact R.quiet b rfl (picture_cons (e := .acted who) rfl) (fun _ => rfl)

theorem Right.chain {c : Cfg} {s s' : St} (R : Right c s) (h : Chain c s s') : Right c s' := by
  induction h with
  | refl => exact R
  | tail _ hp ih => exact ih.prim hp

theorem right {c : Cfg} {g s : St} (h : Reach c (NoKey c) g s) : Right c s := by
  have b := books h
  induction h with
  | init hg =>
    have hp : picture g = nothing := by
      unfold picture
      rw [hg.events]
      rfl
    refine ⟨b, ?_, ?_, ?_⟩
    · rw [hp]
      funext a
      exact (hg.holder a).symm
    · intro n w
      rw [hp]
      simp only [nothing, Bool.false_eq_true, false_iff]
      rintro ⟨d, hd, _⟩
      rw [hg.proxies] at hd
      exact absurd hd List.not_mem_nil
    · intro n d hd
      rw [hg.proxies] at hd
      exact absurd hd List.not_mem_nil
  | step hr hk hs ih =>
    have R := ih (books hr)
    rcases step_cases hs (fun who call e => by subst e; exact hk) with h | rfl | ⟨a, x, rfl⟩
    · exact R.chain h
    · exact R.quiet b rfl rfl (fun _ => rfl)
    · exact R.quiet b rfl rfl (fun _ => rfl)

/-! ## C238: who follows the events knows holders and delegates -/

/-- C238. Whatever happened, whoever has followed the events knows which futurepass each account holds. -/
theorem C238_holders {c : Cfg} {g s : St} (hs : Reach c (NoKey c) g s) (a : Acct) :
    (s.events.reverse.foldl follow nothing).holds a = s.holder a :=
  congrFun (right hs).holds a

/-- C238. They know who the delegates of every futurepass are. -/
theorem C238_delegates {c : Cfg} {g s : St} (hs : Reach c (NoKey c) g s) (n : Nat) (w : Acct) :
    (s.events.reverse.foldl follow nothing).delegate (c.addr n) w = true ↔ IsDelegate s (c.addr n) w :=
  (right hs).delegate n w

/-- C238. They know who acts as an owner, too: those who are written down as holders. -/
theorem C238_owners {c : Cfg} {g s : St} (hs : Reach c (NoKey c) g s) (hr : creations s + 1 < U128) (n : Nat) (w : Acct) :
    (s.events.reverse.foldl follow nothing).holds w = some (c.addr n) ↔ IsOwner s (c.addr n) w := by
  rw [C238_holders hs w]
  exact ⟨fun h => (C52_holder hs hr h).2.1, fun h => C52_owner hs hr h⟩

/-- Futurepasses are made and delegates named. One leaves, the pass goes to 4, a delegate, and the other one is given
up. -/
def storyOps : List Op :=
  [opCreate, opRegister, opRegister4, opCreate2, .call 3 (.unregister 1001 3), .call 1 (.transfer 1 (some 4)),
    .call 2 (.transfer 2 none)]

example : (exec cfg g0 storyOps).events.length = 7 := by decide +kernel
example : ((exec cfg g0 storyOps).events.reverse.foldl follow nothing).holds 4 = some 1001 ∧
    ((exec cfg g0 storyOps).events.reverse.foldl follow nothing).holds 1 = none ∧
    ((exec cfg g0 storyOps).events.reverse.foldl follow nothing).holds 2 = none ∧
    ((exec cfg g0 storyOps).events.reverse.foldl follow nothing).delegate 1001 4 = true ∧
    ((exec cfg g0 storyOps).events.reverse.foldl follow nothing).delegate 1001 3 = false ∧
    (exec cfg g0 storyOps).proxies 1001 = [⟨4, .any, 0⟩, ⟨4, .owner, 0⟩] := by decide +kernel
example := C238_holders (reach storyOps (by decide +kernel)) 4
example := C238_delegates (reach storyOps (by decide +kernel)) 1 4
example := C238_owners (reach storyOps (by decide +kernel)) (by decide +kernel) 1 4

end Verif.Futurepass
