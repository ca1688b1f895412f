import Verif.Holds.Props

/-!
# C254: the events of holds

The events that /repo/pallet/assets-ext/src/lib.rs emits in `place_hold` (586-591), `release_hold` (628-633), `spend_hold` (668-673) and
`split_transfer` (540-544). `spend_hold` calls `split_transfer` (659), whose event comes first.
-/

namespace Verif.Holds

/-- `Event::PlaceHold`, `ReleaseHold`, `SpendHold`, `SplitTransfer` (lib.rs:152-193). -/
inductive Said where
  | placed (a : AssetId) (w : Acct) (amt : Nat) (p : Nat)
  | released (a : AssetId) (w : Acct) (amt : Nat) (p : Nat)
  | spent (a : AssetId) (w : Acct) (xs : List (Acct × Nat)) (p : Nat)
  | split (a : AssetId) (w : Acct) (xs : List (Acct × Nat))
deriving DecidableEq

/-- The events of a call that succeeds. -/
def evs (c : Cfg) : Op → List Said
  | .place p w a amt => [.placed a w amt p]
  | .release p w a amt => [.released a w amt p]
  | .spend p w a xs => [.split a c.pot xs, .spent a w xs p]
  | .split a src xs => [.split a src xs]
  | _ => []

/-- A history and the events so far; calls that fail change and tell nothing. -/
inductive Tells (c : Cfg) (G : Op → Prop) : St → List Said → Prop
  | init {s : St} : Genesis s → Tells c G s []
  | step {s s' : St} {es : List Said} {op : Op} : Tells c G s es → G op → step c s op = .ok s' → Tells c G s' (es ++ evs c op)

/-! ## Specification: a reader of the events -/

/-- What the reader believes that a pallet holds of an account's asset. -/
abbrev Book := AssetId → Acct → Nat → Nat

/-- The amount of all payments of a list. -/
def sumAll (xs : List (Acct × Nat)) : Nat := (xs.map Prod.snd).sum

/-- The reader adds what is placed and takes off what is released or spent. -/
def Book.read (b : Book) : Said → Book
  | .placed a w amt p => fun a' w' p' => if a' = a ∧ w' = w ∧ p' = p then b a' w' p' + amt else b a' w' p'
  | .released a w amt p => fun a' w' p' => if a' = a ∧ w' = w ∧ p' = p then b a' w' p' - amt else b a' w' p'
  | .spent a w xs p => fun a' w' p' => if a' = a ∧ w' = w ∧ p' = p then b a' w' p' - sumAll xs else b a' w' p'
  | .split _ _ _ => b

/-- Reading all events in order, from an empty book. -/
def book (es : List Said) : Book := es.foldl Book.read fun _ _ _ => 0

/-- What an account gets according to an event. -/
def gets (pot : Acct) (a : AssetId) (y : Acct) : Said → Nat
  | .placed a' _ amt _ => if a = a' ∧ y = pot then amt else 0
  | .released a' w amt _ => if a = a' ∧ y = w then amt else 0
  | .spent _ _ _ _ => 0
  | .split a' _ xs => if a = a' then paid xs y else 0

/-- What an account gives according to an event. -/
def gives (pot : Acct) (a : AssetId) (y : Acct) : Said → Nat
  | .placed a' w amt _ => if a = a' ∧ y = w then amt else 0
  | .released a' _ amt _ => if a = a' ∧ y = pot then amt else 0
  | .spent _ _ _ _ => 0
  | .split a' w xs => if a = a' ∧ y = w then sumAll xs else 0

/-! ## Proofs -/

theorem Tells.reach {c : Cfg} {G : Op → Prop} {s : St} {es : List Said} (h : Tells c G s es) : Reach c G s := by
  induction h with
  | init hg => exact .init hg
  | step _ hg hs ih => exact .step ih hg hs

theorem Reach.tells {c : Cfg} {G : Op → Prop} {s : St} (h : Reach c G s) : ∃ es, Tells c G s es := by
  induction h with
  | init hg => exact ⟨[], .init hg⟩
  | step _ hg hs ih =>
    obtain ⟨es, he⟩ := ih
    exact ⟨_, .step he hg hs⟩

theorem book_append (es fs : List Said) : book (es ++ fs) = fs.foldl Book.read (book es) := List.foldl_append ..

/-- Calls that are not told do not change holds. -/
theorem quiet {c : Cfg} {s s' : St} {op : Op} (h : step c s op = .ok s') :
    match op with
    | .split _ _ _ | .transfer _ _ _ _ | .mint _ _ _ | .burn _ _ _ => s'.holds = s.holds
    | _ => True := by
  cases op with
  | split a src xs =>
    simp only [step, bind_ok, pure_ok] at h
    obtain ⟨L, _, rfl⟩ := h
    rfl
  | transfer a src dst x =>
    simp only [step, bind_ok, pure_ok] at h
    obtain ⟨L, _, rfl⟩ := h
    rfl
  | mint a dst x =>
    simp only [step, bind_ok, pure_ok] at h
    obtain ⟨L, _, rfl⟩ := h
    rfl
  | burn a src x =>
    simp only [step, bind_ok, pure_ok] at h
    obtain ⟨L, _, rfl⟩ := h
    rfl
  | _ => trivial

/-- **C254** — a reader of the events knows what every pallet holds of every account's asset, in every history. -/
theorem C254_book {c : Cfg} {s : St} {es : List Said} (h : Tells c (Outside c) s es) (a : AssetId) (w : Acct) (p : Nat) :
    book es a w p = hold s p w a := by
  induction h generalizing a w p with
  | init hg =>
    unfold hold
    rw [hg.2]
    rfl
  | @step s s' es op ht hg hs ih =>
    have hi := ht.reach.hi
    rw [book_append]
    have q := quiet hs
    cases op with
    | place p0 w0 a0 amt =>
      obtain ⟨_, _, e⟩ := place_ok hs hi hg
      have e := e a w p
      show (if a = a0 ∧ w = w0 ∧ p = p0 then book es a w p + amt else book es a w p) = holdOf (s'.holds a w) p
      rw [e, ih]
      unfold hold
      split <;> rfl
    | release p0 w0 a0 amt =>
      obtain ⟨_, _, _, e⟩ := release_ok hs hi hg
      have e := e a w p
      show (if a = a0 ∧ w = w0 ∧ p = p0 then book es a w p - amt else book es a w p) = holdOf (s'.holds a w) p
      rw [ih]
      unfold hold
      split
      · rename_i hc
        rw [if_pos hc] at e
        omega
      · rename_i hc
        rw [if_neg hc] at e
        omega
    | spend p0 w0 a0 xs =>
      obtain ⟨_, _, _, _, _, e⟩ := spend_ok hs hi hg.2
      have e := e a w p
      show (if a = a0 ∧ w = w0 ∧ p = p0 then book es a w p - sumAll xs else book es a w p) = holdOf (s'.holds a w) p
      rw [ih]
      unfold hold sumAll
      split
      · rename_i hc
        rw [if_pos hc] at e
        omega
      · rename_i hc
        rw [if_neg hc] at e
        omega
    | split a0 src xs =>
      have q : s'.holds = s.holds := q
      unfold hold
      rw [q]
      exact ih a w p
    | transfer a0 src dst x =>
      have q : s'.holds = s.holds := q
      unfold hold
      rw [q]
      exact ih a w p
    | mint a0 dst x =>
      have q : s'.holds = s.holds := q
      unfold hold
      rw [q]
      exact ih a w p
    | burn a0 src x =>
      have q : s'.holds = s.holds := q
      unfold hold
      rw [q]
      exact ih a w p

/-- **C254** — the events of a call that holds, releases, spends or splits tell all money that it moves: for every asset and account, what
the account has afterwards and what it gave according to the events is what it had before and what it got according to them. -/
theorem C254_money {c : Cfg} {s s' : St} {op : Op} (h : Reach c (Outside c) s) (hg : Outside c op) (hs : step c s op = .ok s')
    (hop : evs c op ≠ []) (a : AssetId) (y : Acct) :
    s'.ledger.bal a y + ((evs c op).map (gives c.pot a y)).sum = s.ledger.bal a y + ((evs c op).map (gets c.pot a y)).sum := by
  have hi := h.hi
  have move : ∀ {L : Ledger} {a0 : AssetId} {x z : Acct} {amt : Nat}, s.ledger.transfer a0 x z amt = .ok L →
      L.bal a y + (if a = a0 ∧ y = x then amt else 0) = s.ledger.bal a y + (if a = a0 ∧ y = z then amt else 0) := by
    intro L a0 x z amt hL
    obtain ⟨_, _, t3, t4⟩ := Ledger.transfer_ok hL
    by_cases ha : a = a0
    · subst ha
      have e := t4 y
      simpa using e
    · rw [t3 a ha, if_neg (fun k => ha k.1), if_neg (fun k => ha k.1)]
  have pays : ∀ {L : Ledger} {a0 : AssetId} {x : Acct} {xs : List (Acct × Nat)}, payAll s.ledger a0 x xs = .ok L →
      L.bal a y + (if a = a0 ∧ y = x then sumAll xs else 0) = s.ledger.bal a y + (if a = a0 then paid xs y else 0) := by
    intro L a0 x xs hL
    obtain ⟨_, t3, _, t4⟩ := payAll_ok hL
    by_cases ha : a = a0
    · subst ha
      have e := t4 y
      simpa [sumAll] using e
    · rw [t3 a ha, if_neg (fun k => ha k.1), if_neg ha]
  cases op with
  | place p w a0 amt => exact move (place_ok hs hi hg).2.1
  | release p w a0 amt => exact move (release_ok hs hi hg).2.2.1
  | spend p w a0 xs =>
    simp only [step, spend, splitTransfer, bind_ok, ensure_ok, pure_ok] at hs
    obtain ⟨l, _, L, ⟨_, _, hL⟩, rfl⟩ := hs
    exact pays hL
  | split a0 src xs =>
    simp only [step, splitTransfer, bind_ok, ensure_ok, pure_ok] at hs
    obtain ⟨L, ⟨_, _, hL⟩, rfl⟩ := hs
    exact pays hL
  | transfer a0 src dst x => exact absurd rfl hop
  | mint a0 dst x => exact absurd rfl hop
  | burn a0 src x => exact absurd rfl hop

/-- **C254** — everything a reader believes to be held of an account and pallet can be paid back at once. -/
theorem C254_payable {c : Cfg} {s : St} {es : List Said} (h : Tells c (Outside c) s es) (a : AssetId) (w : Acct) (p : Nat)
    (hb : 0 < book es a w p) : ∃ s', step c s (.release p w a (book es a w p)) = .ok s' := by
  rw [C254_book h] at hb ⊢
  exact C34_release_succeeds h.reach hb (Nat.le_refl _)

/-! ## A case -/

/-- The events of the operations of the demonstration (`Props.demoOps`), one of which fails. -/
def demoSaid : List Said :=
  [.placed 4 1 30 7, .placed 4 1 20 5, .placed 4 2 50 7, .released 4 1 10 7, .split 4 999 [(3, 8), (2, 0), (4, 4)],
   .spent 4 1 [(3, 8), (2, 0), (4, 4)] 5]

/-- Run operations and collect their events; failing ones tell nothing. -/
def execEvs (c : Cfg) (s : St) : List Op → List Said
  | [] => []
  | op :: ops =>
    match step c s op with
    | .ok s' => evs c op ++ execEvs c s' ops
    | .error _ => execEvs c s ops

theorem exec_tells {c : Cfg} {G : Op → Prop} : ∀ (ops : List Op) {s : St} {es : List Said}, Tells c G s es → (∀ op ∈ ops, G op) →
    Tells c G (exec c s ops) (es ++ execEvs c s ops)
  | [], _, es, h, _ => by
    show Tells c G _ (es ++ [])
    rw [List.append_nil]
    exact h
  | op :: ops, s, es, h, hg => by
    have hg' : ∀ o ∈ ops, G o := fun o ho => hg o (List.mem_cons_of_mem _ ho)
    unfold exec execEvs
    cases he : step c s op with
    | ok s' =>
      dsimp only
      rw [← List.append_assoc]
      exact exec_tells ops (.step h (hg _ List.mem_cons_self) he) hg'
    | error _ => exact exec_tells ops h hg'

theorem demo_tells : Tells cfg0 (Outside cfg0) demo demoSaid := by
  have := exec_tells (c := cfg0) (G := Outside cfg0) demoOps (.init genesis_g0) (by
    simp only [demoOps, List.forall_mem_cons, Outside, cfg0]
    exact ⟨by decide, by decide, by decide, by decide, by decide, ⟨by decide, by decide⟩, by decide, fun _ h => nomatch h⟩)
  have e : execEvs cfg0 g0 demoOps = demoSaid := by decide +kernel
  rw [List.nil_append, e] at this
  exact this

example : book demoSaid 4 1 5 = 8 ∧ book demoSaid 4 1 7 = 20 ∧ book demoSaid 4 2 7 = 50 ∧ book demoSaid 4 1 9 = 0 := by decide +kernel

/-- A spend that changes three balances. -/
example : (step cfg0 demo (.spend 7 2 4 [(3, 10), (4, 5)])).isOk = true ∧ evs cfg0 (.spend 7 2 4 [(3, 10), (4, 5)]) ≠ [] := by
  decide +kernel

/-! ## What is not told -/

/-- **C254 is false** if issuers act: the issuer of an asset may burn what is held, the pallet tells nothing
of it, and what a reader then believes to be held cannot be released. -/
theorem C254_burnt_refuted : ∃ (c : Cfg) (s : St) (es : List Said), Tells c (WithIssuer c) s es ∧ 0 < book es 4 1 7 ∧
    (∀ s', step c s (.release 7 1 4 (book es 4 1 7)) ≠ .ok s') := by
  have ht := exec_tells (c := cfg0) (G := WithIssuer cfg0) [.place 7 1 4 30, .burn 4 999 30] (.init genesis_g0)
    (by simp [WithIssuer, Outside, cfg0])
  refine ⟨cfg0, _, _, ht, by decide +kernel, ?_⟩
  have : (step cfg0 (exec cfg0 g0 [.place 7 1 4 30, .burn 4 999 30]) (.release 7 1 4
      (book ([] ++ execEvs cfg0 g0 [.place 7 1 4 30, .burn 4 999 30]) 4 1 7))).isOk = false := by decide +kernel
  intro s' hs
  rw [hs] at this
  cases this

end Verif.Holds
