import Verif.Crowdsale.Demo

/-!
# What the readers of the crowdsale's events know (C240)

Somebody who reads only the events keeps a page for each sale: its terms, its stage, the funds raised and what
contributors have not been paid for yet. `look` says how they read, `truth` what the storage says. The events are kept newest
first.
-/

namespace Verif.Crowdsale

/-! ## The reader -/

/-- The stage of a sale as the reader tells them apart; `paying` carries the vouchers announced as paid. -/
inductive Stage where
  | announced
  | selling
  | paying (paid : Nat)
  | over
deriving DecidableEq, Repr

/-- The reader's page of one sale. -/
structure Page where
  stage : Stage
  admin : Acct
  vault : Acct
  pay : AssetId
  coll : Nat
  price : Nat
  voucher : AssetId
  duration : Nat
  raised : Nat
  count : Nat
  /-- contributions of each account that were not paid for yet -/
  due : Acct → Nat

/-- More vouchers have been paid. -/
def Stage.more : Stage → Nat → Stage
  | .paying t, n => .paying (min (t + n) (U128 - 1))
  | p, _ => p

/-- The stage when a sale stops selling: nothing to pay without funds. -/
def Page.after (p : Page) : Stage := if p.raised = 0 then .over else .paying 0

/-- How the reader takes an event about a sale they know. -/
def Page.read (p : Page) : Ev → Page
  | .created _ _ => p
  | .opened _ _ => { p with stage := .selling }
  | .participated _ who x => { p with
      raised := p.raised + x
      count := if p.due who = 0 then min (p.count + 1) (U64 - 1) else p.count
      due := upd p.due who (p.due who + x) }
  | .closed _ => { p with stage := p.after }
  | .claimed _ who n => { p with
      stage := p.stage.more n
      due := upd p.due who 0 }
  | .complete _ _ => { p with stage := .over }
  | .redeemed _ _ _ => p
  | .manual _ => { p with stage := p.after }
  | .proxied _ => p

/-- The page of a sale that has just been announced. -/
def Sale.page (i : Sale) : Page where
  stage := .announced
  admin := i.admin
  vault := i.vault
  pay := i.pay
  coll := i.coll
  price := i.price
  voucher := i.voucher
  duration := i.duration
  raised := i.raised
  count := i.count
  due := fun _ => 0

/-- The event on top of what the reader had. -/
def follow (e : Ev) (p : Option Page) : Option Page :=
  match e with
  | .created _ i => some i.page
  | e => p.map (·.read e)

/-- What the events say about sale `id`, newest first. -/
def look (id : Nat) : List Ev → Option Page
  | [] => none
  | e :: es => if e.about = id then follow e (look id es) else look id es

/-! ## The storage -/

/-- The stage in the storage; a sale that could not be queued for payment is still shown as selling. -/
def Status.shown : Status → Stage
  | .pending _ => .announced
  | .enabled _ => .selling
  | .failed _ => .selling
  | .distributing _ t => .paying t
  | .ended _ => .over

/-- The page the storage would give. -/
def truth (s : St) (id : Nat) : Option Page :=
  (s.sale id).map (fun i => { i.page with
    stage := i.status.shown
    due := s.contrib id })

/-- All vouchers announced as paid for sale `id`. -/
def paidOut (id : Nat) : List Ev → Nat
  | [] => 0
  | .claimed i _ n :: es => (if i = id then n else 0) + paidOut id es
  | _ :: es => paidOut id es

/-! ## Proof -/

theorem look_append (id : Nat) : ∀ (es fs : List Ev), (∀ e ∈ es, e.about ≠ id) → look id (es ++ fs) = look id fs
  | [], _, _ => rfl
  | e :: es, fs, h => by
    rw [List.cons_append, look, if_neg (h e (List.mem_cons_self ..))]
    exact look_append id es fs (fun e' he' => h e' (List.mem_cons_of_mem _ he'))

theorem paidOut_append (id : Nat) : ∀ (es fs : List Ev), (∀ e ∈ es, e.about ≠ id) →
    paidOut id (es ++ fs) = paidOut id fs
  | [], _, _ => rfl
  | e :: es, fs, h => by
    have ih := paidOut_append id es fs (fun e' he' => h e' (List.mem_cons_of_mem _ he'))
    have h0 := h e (List.mem_cons_self ..)
    cases e <;> simp only [List.cons_append, paidOut, ih]
    simp only [Ev.about] at h0
    simp [h0]

/-- The totals announced at the end of the payments of sale `id`. -/
def totals (id : Nat) : List Ev → List Nat
  | [] => []
  | .complete i t :: es => if i = id then t :: totals id es else totals id es
  | _ :: es => totals id es

theorem totals_append (id : Nat) : ∀ (es fs : List Ev), (∀ e ∈ es, e.about ≠ id) →
    totals id (es ++ fs) = totals id fs
  | [], _, _ => rfl
  | e :: es, fs, h => by
    have ih := totals_append id es fs (fun e' he' => h e' (List.mem_cons_of_mem _ he'))
    have h0 := h e (List.mem_cons_self ..)
    cases e <;> simp only [List.cons_append, totals, ih]
    simp only [Ev.about] at h0
    simp [h0]

theorem mem_totals {id t : Nat} : ∀ {es : List Ev}, .complete id t ∈ es → t ∈ totals id es
  | e :: es, h => by
    rcases List.mem_cons.mp h with rfl | h
    · simp [totals]
    · have ih := mem_totals h
      cases e <;> simp only [totals] <;> first | exact ih | (split; exact List.mem_cons_of_mem _ ih; exact ih)

/-- The totals fit the payments. -/
def Sums (st : Status) (id : Nat) (es : List Ev) : Prop :=
  match st with
  | .distributing _ t => totals id es = [] ∧ t = min (paidOut id es) (U128 - 1)
  | .ended _ => ∀ t ∈ totals id es, t = min (paidOut id es) (U128 - 1)
  | _ => totals id es = [] ∧ paidOut id es = 0

/-- The reader is right about sale `id`. -/
structure Right (s : St) (id : Nat) : Prop where
  page : look id s.events = truth s id
  sums : ∀ i, s.sale id = some i → Sums i.status id s.events

theorem Right.same {s s' : St} {j : Nat} (h : Right s j) (h1 : s'.sale j = s.sale j) (h2 : s'.contrib j = s.contrib j)
    {es : List Ev} (h3 : s'.events = es ++ s.events) (h4 : ∀ e ∈ es, e.about ≠ j) : Right s' j where
  page := by
    rw [h3, look_append j es _ h4, h.page]
    simp only [truth, h1, h2]
  sums i hi := by
    rw [h1] at hi
    have := h.sums i hi
    have e1 := totals_append j es s.events h4
    have e2 := paidOut_append j es s.events h4
    rw [h3]
    unfold Sums at this ⊢
    rw [e1, e2]
    exact this

theorem Right.quiet {c : Cfg} {s s' : St} {j : Nat} (h : Right s j) (q : Quiet c j s s') : Right s' j := by
  obtain ⟨es, h1, h2⟩ := q.events
  exact h.same q.sale q.contrib h1 h2

/-- Only sale `id` is concerned. -/
theorem Right.others {s s' : St} {id : Nat} (es : List Ev) (h : ∀ j, Right s j)
    (h1 : ∀ x, x ≠ id → s'.sale x = s.sale x) (h2 : ∀ x, x ≠ id → s'.contrib x = s.contrib x)
    (h3 : s'.events = es ++ s.events) (h4 : ∀ e ∈ es, e.about = id) (ht : Right s' id) {j : Nat} : Right s' j := by
  by_cases e : j = id
  · subst e; exact ht
  · refine (h j).same (h1 j e) (h2 j e) h3 ?_
    intro x hx hj
    exact e (hj.symm.trans (h4 x hx))

theorem about_one {e : Ev} {id : Nat} (h : e.about = id) : ∀ x ∈ [e], x.about = id := by
  intro x hx
  rw [List.mem_singleton] at hx
  rw [hx]; exact h

theorem look_top {e : Ev} {id : Nat} (h : e.about = id) (es : List Ev) : look id (e :: es) = follow e (look id es) :=
  if_pos h

theorem upd_eta {α : Type} {β : Type} [DecidableEq α] (f : α → β) (a : α) : upd f a (f a) = f := by
  funext x
  by_cases e : x = a
  · subst e; exact upd_same _ _ _
  · exact upd_ne _ _ e

theorem sat_min (a n : Nat) : satAdd (min a (U128 - 1)) n = min (n + a) (U128 - 1) := by
  unfold satAdd; omega

/-- The pages after some payments. -/
theorem payLoop_right {c : Cfg} {id : Nat} {i : Sale} {k : Coll} {m : Nat} (hd : i.paying) :
    ∀ (n : Nat) (s : St) (t : Nat), SaleInv c s id i k m →
      look id s.events = some { i.page with
        stage := .paying t
        due := s.contrib id } → totals id s.events = [] → t = min (paidOut id s.events) (U128 - 1) →
      look id (payLoop i id m n s t).1.events = some { i.page with
        stage := .paying (payLoop i id m n s t).2.1
        due := (payLoop i id m n s t).1.contrib id } ∧ totals id (payLoop i id m n s t).1.events = [] ∧
      (payLoop i id m n s t).2.1 = min (paidOut id (payLoop i id m n s t).1.events) (U128 - 1) ∧
      (∃ f, (payLoop i id m n s t).1.contrib = upd s.contrib id f) ∧
      ∃ es, (payLoop i id m n s t).1.events = es ++ s.events ∧ ∀ e ∈ es, e.about = id
  | 0, s, t, _, h1, h2, h3 => ⟨h1, h2, h3, ⟨_, (upd_eta _ _).symm⟩, [], rfl, by simp⟩
  | n + 1, s, t, K, h1, h2, h3 => by
    unfold payLoop
    split
    · exact ⟨h1, h2, h3, ⟨_, (upd_eta _ _).symm⟩, [], rfl, by simp⟩
    · rename_i w ks hk
      have hw : w ∈ s.keys id := by rw [hk]; exact List.mem_cons_self ..
      dsimp only
      have hx : s.contrib id w ≤ i.raised := by rw [(K.inKeys w hw).1]; exact K.total.le w
      obtain ⟨s2, hp⟩ := payVouchers_succeeds (s := dropKey s id w) (who := w)
        (rewards_eq K.price K.raisedLt hx K.fits)
      rw [hp]
      dsimp only
      obtain ⟨_, _, hc, he, _, K2, _, _⟩ := pay_one K hd hw hp
      have ih := payLoop_right hd n { s2 with events := .claimed id w (share i.price i.raised m (s.contrib id w)) :: s2.events }
        (satAdd t (share i.price i.raised m (s.contrib id w))) K2 ?_ ?_ ?_
      · obtain ⟨a1, a2, a3, ⟨f, a4⟩, es, a5, a6⟩ := ih
        refine ⟨a1, a2, a3, ⟨f, ?_⟩, es ++ [.claimed id w (share i.price i.raised m (s.contrib id w))], ?_, ?_⟩
        · rw [a4]
          show upd s2.contrib id f = _
          rw [hc]
          funext x
          by_cases e : x = id
          · subst e; rw [upd_same, upd_same]
          · rw [upd_ne _ _ e, upd_ne _ _ e, upd_ne _ _ e]
        · rw [a5]
          show es ++ (_ :: s2.events) = _
          rw [he, List.append_assoc]; rfl
        · intro e he'
          rcases List.mem_append.mp he' with h | h
          · exact a6 e h
          · simp only [List.mem_singleton] at h; subst h; rfl
      · show look id (_ :: s2.events) = _
        simp only [he, look, Ev.about, if_true, h1, follow, Option.map_some, Page.read, Stage.more, satAdd, upd_same, hc,
          Sale.page]
      · show totals id (_ :: s2.events) = _
        simp only [he, totals, h2]
      · show _ = min (paidOut id (_ :: s2.events)) _
        simp only [he, paidOut, if_true, h3]
        exact sat_min _ _

theorem launch_right {c : Cfg} {s s' : St} {who : Acct} {pay : AssetId} {coll price dur : Nat} {v : AssetId}
    (H : Inv c s) (h : launch c s who pay coll price dur v = .ok s') (R : ∀ j, Right s j) (j : Nat) : Right s' j := by
  obtain ⟨k, m, L, h1, h2, h3, h4, h5, h6, h7, h8, h9, h10, h11, rfl⟩ := launch_ok h
  obtain ⟨b1, b2, b3, b4, b5⟩ := H.blank s.next (le_refl _)
  have t0 : totals s.next s.events = [] := by simpa [totals] using totals_append s.next s.events [] b4
  have p0 : paidOut s.next s.events = 0 := by simpa [paidOut] using paidOut_append s.next s.events [] b4
  refine Right.others (id := s.next)
    [.created s.next ⟨.pending s.now, who, c.vault s.next, pay, coll, price, 0, 0, v, dur⟩] R
    (by intro x hx; exact upd_ne _ _ hx) (by intro x _; rfl) (by rfl) (about_one (by rfl)) ?_
  have ef : s.contrib s.next = fun _ => 0 := funext b3
  constructor
  · show look s.next (_ :: s.events) = _
    simp only [look, Ev.about, if_true, follow, truth, upd_same, Option.map_some, Status.shown, ef, Sale.page]
  · intro i hi
    simp only [upd_same, Option.some.injEq] at hi
    subst hi
    exact ⟨t0, p0⟩

theorem right_page {s : St} {id : Nat} {i : Sale} (R : Right s id) (hi : s.sale id = some i) :
    look id s.events = some { i.page with
      stage := i.status.shown
      due := s.contrib id } := by
  rw [R.page, truth, hi]; rfl

theorem enable_right {c : Cfg} {s s' : St} {who : Acct} {id : Nat} (h : enable c s who id = .ok s')
    (R : ∀ j, Right s j) (j : Nat) : Right s' j := by
  obtain ⟨i, b, h1, h2, h3, rfl⟩ := enable_ok h
  refine Right.others (id := id) [.opened id (min (i.duration + s.now) (U32 - 1))] R
    (by intro x hx; exact upd_ne _ _ hx) (by intro x _; rfl) (by rfl) (about_one (by rfl)) ?_
  have hp := right_page (R id) h1
  have hs := (R id).sums i h1
  rw [h2] at hs
  constructor
  · show look id (_ :: s.events) = _
    simp only [look, Ev.about, if_true, hp, follow, truth, upd_same, Option.map_some, Status.shown, Sale.page, Page.read]
  · intro i' hi
    simp only [upd_same, Option.some.injEq] at hi
    subst hi
    exact hs

theorem participate_right {c : Cfg} {s s' : St} {who : Acct} {id x : Nat} (H : Inv c s)
    (h : participate c s who id x = .ok s') (hw : ∀ id, who ≠ c.vault id) (R : ∀ j, Right s j) (j : Nat) :
    Right s' j := by
  obtain ⟨i, b, L, h0, h1, h2, h3, rfl⟩ := participate_ok h
  obtain ⟨k, m, K⟩ := H.sales id i h1
  have hph := K.phase
  simp only [Phase, h2] at hph
  obtain ⟨t1, t2, t3, t4⟩ := Ledger.transfer_ok h3
  have hv : i.vault ≠ who := by rw [K.vault]; exact fun e => hw id e.symm
  have a2 := t4 i.vault
  rw [if_neg hv, if_pos rfl] at a2
  have hlt := (Ledger.transfer_sound h3 H.sound).bal_lt i.pay i.vault
  have hpr := hph.1
  rw [← K.vault] at hpr
  have er : satAdd i.raised x = i.raised + x := min_eq_left (by omega)
  have ed : (if who ∈ s.keys id then satAdd (s.contrib id who) x else x) = s.contrib id who + x := by
    by_cases hk : who ∈ s.keys id
    · rw [if_pos hk]
      have : s.contrib id who ≤ i.raised := by rw [(K.inKeys who hk).1]; exact K.total.le who
      exact min_eq_left (by omega)
    · rw [if_neg hk, (K.outKeys who hk).1]; omega
  have ec : (if who ∈ s.keys id then i.count else min (i.count + 1) (U64 - 1)) =
      if s.contrib id who = 0 then min (i.count + 1) (U64 - 1) else i.count := by
    by_cases hk : who ∈ s.keys id
    · obtain ⟨c1, c2, _⟩ := K.inKeys who hk
      rw [if_pos hk, if_neg (by omega)]
    · rw [if_neg hk, if_pos (K.outKeys who hk).1]
  refine Right.others (id := id) [.participated id who x] R
    (by intro x hx; exact upd_ne _ _ hx) (by intro x hx; exact upd_ne _ _ hx) (by rfl) (about_one (by rfl)) ?_
  have hp := right_page (R id) h1
  have hs := (R id).sums i h1
  rw [h2] at hs
  constructor
  · show look id (_ :: s.events) = _
    simp only [look, Ev.about, if_true, hp, follow, truth, upd_same, Option.map_some, h2, Status.shown, Sale.page, Page.read, er, ed, ec]
  · intro i' hi
    simp only [upd_same, Option.some.injEq] at hi
    subst hi
    show Sums i.status _ _
    rw [h2]
    exact hs

theorem force_right {c : Cfg} {s s' : St} {id : Nat} (h : force c s id = .ok s')
    (R : ∀ j, Right s j) (j : Nat) : Right s' j := by
  obtain ⟨i, b, h1, h2, rfl⟩ := force_ok h
  refine Right.others (id := id) [.manual id] R
    (by intro x hx; exact upd_ne _ _ hx) (by intro x _; rfl) (by rfl) (about_one (by rfl)) ?_
  have hp := right_page (R id) h1
  have hs := (R id).sums i h1
  rw [h2] at hs
  constructor
  · show look id (_ :: s.events) = _
    by_cases e : i.raised = 0 <;>
      simp only [look, Ev.about, hp, follow, truth, upd_same, Option.map_some, Status.shown, Sale.page, Page.read, Page.after, e,
        if_true, if_false]
  · intro i' hi
    simp only [upd_same, Option.some.injEq] at hi
    subst hi
    obtain ⟨a1, a2⟩ := hs
    by_cases e : i.raised = 0
    · simp only [e, if_true]
      intro t ht
      have : t ∈ totals id s.events := ht
      rw [a1] at this; cases this
    · simp only [e, if_false]
      refine ⟨a1, ?_⟩
      show 0 = min (paidOut id s.events) _
      rw [a2]; rfl

theorem redeem_right {c : Cfg} {s s' : St} {who : Acct} {id q : Nat} (h : redeem c s who id q = .ok s')
    (R : ∀ j, Right s j) (j : Nat) : Right s' j := by
  obtain ⟨i, k, L, _, h1, _, _, _, _, _, _, rfl⟩ := redeem_ok h
  refine Right.others (id := id) [.redeemed id who q] R
    (by intro x _; rfl) (by intro x _; rfl) (by rfl) (about_one (by rfl)) ?_
  have hp := right_page (R id) h1
  constructor
  · show look id (_ :: s.events) = _
    simp only [look, Ev.about, if_true, hp, follow, truth, h1, Option.map_some, Page.read]
  · intro i' hi
    exact (R id).sums i' hi

theorem proxy_right {c : Cfg} {s s' : St} {who : Acct} {id : Nat} {call : Call} (h : proxy c s who id call = .ok s')
    (R : ∀ j, Right s j) (j : Nat) : Right s' j := by
  obtain ⟨i, s1, h1, _, _, h2, rfl⟩ := proxy_ok h
  obtain ⟨L, is, cs, rfl, _, _⟩ := run_frame h2
  refine Right.others (id := id) [.proxied id] R
    (by intro x _; rfl) (by intro x _; rfl) (by rfl) (about_one (by rfl)) ?_
  have hp := right_page (R id) h1
  constructor
  · show look id (_ :: s.events) = _
    simp only [look, Ev.about, if_true, hp, follow, truth, h1, Option.map_some, Page.read]
  · intro i' hi
    exact (R id).sums i' hi

theorem closeOne_right {c : Cfg} {s : St} {id : Nat} (H : Inv c s) (R : ∀ j, Right s j) (j : Nat) :
    Right (closeOne c s id) j := by
  by_cases h : ∃ i, s.sale id = some i ∧ i.isOpen
  · obtain ⟨i, hi, ho⟩ := h
    obtain ⟨k, m, K⟩ := H.sales id i hi
    obtain ⟨L, L2, st, q, es, h1, h2, h3, h4⟩ := closeOne_open hi K ho
    rw [h4]
    obtain ⟨b, hb⟩ := ho
    have hp := right_page (R id) hi
    have hs := (R id).sums i hi
    rw [hb] at hs
    obtain ⟨a1, a2⟩ := hs
    cases h3 with
    | empty e =>
      refine Right.others (id := id) [.closed id] R
        (by intro x hx; exact upd_ne _ _ hx) (by intro x _; rfl) (by rfl) (about_one (by rfl)) ?_
      constructor
      · show look id (_ :: s.events) = _
        simp only [look, Ev.about, if_true, hp, follow, truth, upd_same, Option.map_some, Status.shown, Sale.page, Page.read, Page.after, e, if_true]
      · intro i' hi'
        simp only [upd_same, Option.some.injEq] at hi'
        subst hi'
        intro t ht
        have : t ∈ totals id s.events := ht
        rw [a1] at this; cases this
    | queued e _ =>
      refine Right.others (id := id) [.closed id] R
        (by intro x hx; exact upd_ne _ _ hx) (by intro x _; rfl) (by rfl) (about_one (by rfl)) ?_
      constructor
      · show look id (_ :: s.events) = _
        simp only [look, Ev.about, if_true, hp, follow, truth, upd_same, Option.map_some, Status.shown, Sale.page, Page.read, Page.after, e, if_false]
      · intro i' hi'
        simp only [upd_same, Option.some.injEq] at hi'
        subst hi'
        refine ⟨a1, ?_⟩
        show 0 = min (paidOut id s.events) _
        rw [a2]; rfl
    | full _ _ =>
      refine Right.others (id := id) [] R (by intro x hx; exact upd_ne _ _ hx) (by intro x _; rfl)
        (by rfl) (by simp) ?_
      constructor
      · show look id s.events = _
        rw [hp]
        simp only [truth, upd_same, Option.map_some, hb, Status.shown, Sale.page]
      · intro i' hi'
        simp only [upd_same, Option.some.injEq] at hi'
        subst hi'
        exact ⟨a1, a2⟩
  · rw [closeOne_skip (fun i hi ho => h ⟨i, hi, ho⟩)]; exact R j

theorem closeAll_right {c : Cfg} : ∀ (l : List Nat) {s : St}, Inv c s → (∀ j, Right s j) →
    ∀ j, Right (closeAll c s l) j
  | [], _, _, R => R
  | id :: l, _, H, R => closeAll_right l (closeOne_inv (id := id) H) (closeOne_right H R)

theorem distribute_right {c : Cfg} {s s' : St} (H : Inv c s) (h : distribute c s = .ok s') (R : ∀ j, Right s j)
    (j : Nat) : Right s' j := by
  obtain ⟨id, rest, i, b, t, k, m, h1, h2, h3, h4, h5, h6⟩ := distribute_ok h
  obtain ⟨k', m', K⟩ := H.sales id i h2
  have e1 : k' = k := by have := K.coll; rw [h4] at this; cases this; rfl
  subst e1
  have e2 : m' = m := by have := K.max; rw [h5] at this; cases this; rfl
  subst e2
  have hp := right_page (R id) h2
  have hs := (R id).sums i h2
  rw [h3] at hs hp
  obtain ⟨a1, a2⟩ := hs
  obtain ⟨b1, b2, b3, ⟨f, b4⟩, es, b5, b6⟩ := payLoop_right ⟨b, t, h3⟩ c.maxPay s t K hp a1 a2
  have hsale := (payLoop_frame (i := i) (id := id) (m := m') c.maxPay s t).1
  rcases h6 with ⟨_, rfl⟩ | ⟨_, rfl⟩
  · obtain ⟨L, hf, _⟩ := finish_frame (s := (payLoop i id m' c.maxPay s t).1) (i := i) (id := id)
      (t := (payLoop i id m' c.maxPay s t).2.1)
    rw [hf]
    refine Right.others (id := id) (.complete id (payLoop i id m' c.maxPay s t).2.1 :: es) R ?_ ?_ ?_ ?_ ?_
    · intro x hx
      show upd _ id _ x = _
      rw [hsale, upd_ne _ _ hx]
    · intro x hx
      show (payLoop i id m' c.maxPay s t).1.contrib x = _
      rw [b4, upd_ne _ _ hx]
    · show _ :: _ = _
      rw [b5]; rfl
    · intro e he
      rcases List.mem_cons.mp he with rfl | he
      · rfl
      · exact b6 e he
    · constructor
      · show look id (_ :: (payLoop i id m' c.maxPay s t).1.events) = _
        simp only [look, Ev.about, if_true, b1, follow, truth, upd_same, Option.map_some, Status.shown, Sale.page, Page.read]
      · intro i' hi'
        simp only [upd_same, Option.some.injEq] at hi'
        subst hi'
        intro t' ht'
        have ht2 : t' ∈ totals id (.complete id (payLoop i id m' c.maxPay s t).2.1 ::
          (payLoop i id m' c.maxPay s t).1.events) := ht'
        simp only [totals, if_true, b2, List.mem_singleton] at ht2
        rw [ht2]; exact b3
  · refine Right.others (id := id) es R ?_ ?_ (by exact b5) b6 ?_
    · intro x hx
      show upd _ id _ x = _
      rw [hsale, upd_ne _ _ hx]
    · intro x hx
      show (payLoop i id m' c.maxPay s t).1.contrib x = _
      rw [b4, upd_ne _ _ hx]
    · constructor
      · show look id (payLoop i id m' c.maxPay s t).1.events = _
        rw [b1]
        simp only [truth, upd_same, Option.map_some, Status.shown, Sale.page]
      · intro i' hi'
        simp only [upd_same, Option.some.injEq] at hi'
        subst hi'
        exact ⟨b2, b3⟩

theorem claim_right {c : Cfg} {s s' : St} {who : Acct} {id : Nat} (H : Inv c s) (h : claim s who id = .ok s')
    (R : ∀ j, Right s j) (j : Nat) : Right s' j := by
  obtain ⟨i, b, t, k, m, s2, n, h1, h2, h3, h4, h5, h6, h7⟩ := claim_ok h
  obtain ⟨k', m', K⟩ := H.sales id i h1
  have e1 : k' = k := by have := K.coll; rw [h4] at this; cases this; rfl
  subst e1
  have e2 : m' = m := by have := K.max; rw [h5] at this; cases this; rfl
  subst e2
  have hp := right_page (R id) h1
  have hs := (R id).sums i h1
  rw [h2] at hs hp
  obtain ⟨a1, a2⟩ := hs
  obtain ⟨_, _, hc, he, hP, _, _, _⟩ := pay_one K ⟨b, t, h2⟩ h3 h6
  have hsale : s2.sale = s.sale := hP.sale
  rcases h7 with ⟨_, rfl⟩ | ⟨_, rfl⟩
  · obtain ⟨L, hf, _⟩ := finish_frame (s := s2) (i := i) (id := id) (t := satAdd t n)
    rw [hf]
    refine Right.others (id := id) [.claimed id who n, .complete id (satAdd t n)] R ?_ ?_ ?_ ?_ ?_
    · intro x hx
      show upd _ id _ x = _
      rw [hsale, upd_ne _ _ hx]
    · intro x hx
      show s2.contrib x = _
      rw [hc, upd_ne _ _ hx]
    · show _ :: _ :: _ = _
      rw [he]; rfl
    · intro e he
      simp only [List.mem_cons, List.not_mem_nil, or_false] at he
      rcases he with rfl | rfl <;> rfl
    · constructor
      · show look id (_ :: _ :: s2.events) = _
        simp only [he, look, Ev.about, if_true, hp, follow, truth, upd_same, Option.map_some, Status.shown, Sale.page, Page.read, Stage.more, hc]
      · intro i' hi'
        simp only [upd_same, Option.some.injEq] at hi'
        subst hi'
        intro t' ht'
        have ht2 : t' ∈ totals id (.claimed id who n :: .complete id (satAdd t n) :: s2.events) := ht'
        simp only [he, totals, if_true, a1, List.mem_singleton] at ht2
        show t' = min (paidOut id (.claimed id who n :: .complete id (satAdd t n) :: s2.events)) _
        simp only [he, paidOut, if_true, ht2, a2]
        exact sat_min _ _
  · refine Right.others (id := id) [.claimed id who n] R ?_ ?_ ?_ ?_ ?_
    · intro x hx
      show upd _ id _ x = _
      rw [hsale, upd_ne _ _ hx]
    · intro x hx
      show s2.contrib x = _
      rw [hc, upd_ne _ _ hx]
    · show _ :: _ = _
      rw [he]; rfl
    · intro e he
      simp only [List.mem_singleton] at he
      subst he; rfl
    · constructor
      · show look id (_ :: s2.events) = _
        simp only [he, look, Ev.about, if_true, hp, follow, truth, upd_same, Option.map_some, Status.shown, Sale.page, Page.read, Stage.more, hc, satAdd]
      · intro i' hi'
        simp only [upd_same, Option.some.injEq] at hi'
        subst hi'
        refine ⟨?_, ?_⟩
        · show totals id (.claimed id who n :: s2.events) = []
          simp only [he, totals, a1]
        · show satAdd t n = min (paidOut id (.claimed id who n :: s2.events)) _
          simp only [he, paidOut, if_true, a2]
          exact sat_min _ _

theorem step_right {c : Cfg} {s s' : St} {op : Op} (H : Inv c s) (hG : Calm c s op) (h : step c s op = .ok s')
    (R : ∀ j, Right s j) (j : Nat) : Right s' j := by
  cases op with
  | launch who pay coll price dur v => exact launch_right H h R j
  | enable who id => exact enable_right h R j
  | participate who id x => exact participate_right H h (hG.1 who rfl) R j
  | distribute => exact distribute_right H h R j
  | claim who id => exact claim_right H h R j
  | redeem who id q => exact redeem_right h R j
  | proxy who id call => exact proxy_right h R j
  | force id => exact force_right h R j
  | block =>
    cases h
    have H0 : Inv c { s with
        now := s.now + 1
        ending := upd s.ending (s.now + 1) [] } :=
      Inv.all H H.sound H.fresh rfl H.nodupQ (fun j => { Quiet.refl c j s with sale := rfl })
    exact closeAll_right _ H0 (fun j => ⟨(R j).page, (R j).sums⟩) j
  | act who call =>
    obtain ⟨L, is, cs, rfl, _, _⟩ := run_frame h
    exact ⟨(R j).page, (R j).sums⟩

theorem reach_right {c : Cfg} (hl : Limits c) {g s : St} (h : Reach c (Calm c) g s) (j : Nat) : Right s j := by
  induction h generalizing j with
  | init hg =>
    constructor
    · rw [truth, hg.sale, hg.events]; rfl
    · intro i hi; rw [hg.sale] at hi; cases hi
  | step hr hG hs ih => exact step_right (reach_inv hl hr) hG hs ih j

/-! ## C240 -/

/-- C240: whoever reads all events knows the terms, the funds raised, the contributions not paid for yet and the
stage of every sale, except that a sale that could not be queued for payment looks as if it were still selling. -/
theorem C240_page {c : Cfg} (hl : Limits c) {g s : St} (h : Reach c (Calm c) g s) (id : Nat) :
    look id s.events = truth s id := (reach_right hl h id).page

/-- C240: a sale known from the events exists, and the other way round. -/
theorem C240_known {c : Cfg} (hl : Limits c) {g s : St} (h : Reach c (Calm c) g s) (id : Nat) :
    (look id s.events).isSome = (s.sale id).isSome := by
  rw [C240_page hl h, truth]; cases s.sale id <;> rfl

/-- C240: what the events say about a sale whose payment could be queued. -/
theorem C240_partial {c : Cfg} (hl : Limits c) {g s : St} (h : Reach c (Calm c) g s) {id : Nat} {i : Sale}
    (hi : s.sale id = some i) (hf : ∀ b, i.status ≠ .failed b) :
    ∃ p, look id s.events = some p ∧ p.raised = i.raised ∧ p.due = s.contrib id ∧ p.price = i.price ∧ p.pay = i.pay ∧
      p.admin = i.admin ∧ p.coll = i.coll ∧ p.voucher = i.voucher ∧
      (p.stage = .announced ↔ ∃ b, i.status = .pending b) ∧ (p.stage = .selling ↔ i.isOpen) ∧
      (∀ t, p.stage = .paying t ↔ ∃ b, i.status = .distributing b t) ∧ (p.stage = .over ↔ i.isOver) := by
  refine ⟨_, right_page (reach_right hl h id) hi, rfl, rfl, rfl, rfl, rfl, rfl, rfl, ?_, ?_, ?_, ?_⟩
  all_goals
    cases hst : i.status with
    | failed b => exact absurd hst (hf b)
    | _ => simp [Status.shown, Sale.isOpen, Sale.isOver, hst]

/-- C240: the total announced at the end is the sum of the payments announced, capped at the largest balance. -/
theorem C240_total {c : Cfg} (hl : Limits c) {g s : St} (h : Reach c (Calm c) g s) {id t : Nat}
    (he : .complete id t ∈ s.events) : t = min (paidOut id s.events) (U128 - 1) := by
  have R := reach_right hl h id
  have H := reach_inv hl h
  cases hi : s.sale id with
  | none =>
    exact absurd rfl ((H.blank id (Nat.le_of_not_lt (fun hlt => (reach_ids h id).mpr hlt hi))).2.2.2.1 _ he)
  | some i =>
    have hs := R.sums i hi
    have hm := mem_totals he
    cases hst : i.status with
    | ended b => rw [hst] at hs; exact hs t hm
    | distributing b t' => rw [hst] at hs; rw [hs.1] at hm; cases hm
    | pending b => rw [hst] at hs; rw [hs.1] at hm; cases hm
    | enabled b => rw [hst] at hs; rw [hs.1] at hm; cases hm
    | failed b => rw [hst] at hs; rw [hs.1] at hm; cases hm

/-! ## Cases -/

/-- After the payments: everything is known. -/
example : (look 0 sOver.events).map (fun p => (p.stage, p.price, p.raised, p.count, p.due 30, p.due 31)) =
    some (.over, 10, 65, 2, 0, 0) ∧ paidOut 0 sOver.events = 6500000 ∧ .complete 0 6500000 ∈ sOver.events ∧
    Reach cd (Calm cd) g0 sOver := ⟨by decide +kernel, by decide +kernel, by decide +kernel, calm_demo (by decide +kernel)⟩

/-- Between closing and payment. -/
example : (look 0 sPay.events).map (fun p => (p.stage, p.raised, p.count, p.due 30, p.due 31)) =
    some (.paying 0, 65, 2, 25, 40) ∧ Reach cd (Calm cd) g0 sPay := ⟨by decide +kernel, calm_demo (by decide +kernel)⟩

/-- Room for one sale in the queue. -/
def cq : Cfg := { cd with maxQueue := 1 }

/-- Two sales that end in the same block. -/
def twoSales : List Op :=
  [.act 1 (.createAsset 5), .act 1 (.mintAsset 5 30 500), .act 20 (.createColl 7 (some 10)),
    .act 20 (.createColl 8 (some 10)), .launch 20 5 7 10 2 6, .launch 20 5 8 10 2 9, .enable 20 0, .enable 20 1,
    .participate 30 0 25, .participate 30 1 25, .block, .block]

theorem along_mem {c : Cfg} {G : St → Op → Prop} : ∀ (ops : List Op), (∀ s op, op ∈ ops → G s op) →
    ∀ s, Along c G s ops
  | [], _, _ => trivial
  | op :: ops, h, s => ⟨h s op (List.mem_cons_self ..), along_mem ops (fun s o ho => h s o (List.mem_cons_of_mem _ ho)) _⟩

/-- The property fails as stated: the queue of sales to be paid is full when the second sale ends. It takes no more
contributions, but no event says so: to the reader it is still selling. -/
theorem C240_refuted : ∃ (c : Cfg) (g s : St) (i : Sale) (b : Nat), Limits c ∧ Reach c (Calm c) g s ∧
    s.sale 1 = some i ∧ i.status = .failed b ∧ (look 1 s.events).map Page.stage = some .selling ∧
    (∀ who x s', step c s (.participate who 1 x) ≠ .ok s') := by
  have hr : Reach cq (Calm cq) g0 (exec cq g0 twoSales) := by
    refine exec_reach _ (.init g0_genesis) ?_
    have hc : ∀ s op, op ∈ twoSales → Calm cq s op := by
      intro s op hop
      have hB : calmB op = true := by
        revert op
        decide +kernel
      exact calm_of (s := s) hB
    exact along_mem twoSales hc _
  refine ⟨cq, g0, exec cq g0 twoSales, ⟨.failed 102, 20, 1001, 5, 8, 10, 25, 1, 9, 2⟩, 102,
    by unfold Limits; decide, hr, by decide +kernel, rfl, by decide +kernel, ?_⟩
  intro who x s' h
  obtain ⟨i, b, L, _, h1, h2, _⟩ := participate_ok h
  have e : (exec cq g0 twoSales).sale 1 = some ⟨.failed 102, 20, 1001, 5, 8, 10, 25, 1, 9, 2⟩ := by decide +kernel
  rw [e] at h1
  cases h1
  cases h2

end Verif.Crowdsale
