import Verif.Crowdsale.Close

/-!
# The life of a sale (C97)
-/

namespace Verif.Crowdsale

/-- The order of the stages. -/
def stage : Status → Nat
  | .pending _ => 0
  | .enabled _ => 1
  | .failed _ => 2
  | .distributing _ _ => 3
  | .ended _ => 4

/-- What may happen to a sale record over time: its terms are fixed, it only moves forward through
the stages, and the funds raised only change while it is open. -/
structure Later (i j : Sale) : Prop where
  admin : j.admin = i.admin
  vault : j.vault = i.vault
  pay : j.pay = i.pay
  coll : j.coll = i.coll
  price : j.price = i.price
  voucher : j.voucher = i.voucher
  duration : j.duration = i.duration
  stage : stage i.status ≤ stage j.status
  raised : i.raised < U128 → i.raised ≤ j.raised ∧ j.raised < U128
  frozen : 1 < Crowdsale.stage i.status → j.raised = i.raised

theorem Later.refl (i : Sale) : Later i i where
  admin := rfl
  vault := rfl
  pay := rfl
  coll := rfl
  price := rfl
  voucher := rfl
  duration := rfl
  stage := le_refl _
  raised h := ⟨le_refl _, h⟩
  frozen _ := rfl

theorem Later.trans {i j k : Sale} (h : Later i j) (g : Later j k) : Later i k where
  admin := g.admin.trans h.admin
  vault := g.vault.trans h.vault
  pay := g.pay.trans h.pay
  coll := g.coll.trans h.coll
  price := g.price.trans h.price
  voucher := g.voucher.trans h.voucher
  duration := g.duration.trans h.duration
  stage := le_trans h.stage g.stage
  raised x := by
    obtain ⟨h1, h2⟩ := h.raised x
    obtain ⟨h3, h4⟩ := g.raised h2
    exact ⟨le_trans h1 h3, h4⟩
  frozen h1 := by
    have := h.stage
    rw [g.frozen (by omega), h.frozen h1]

theorem Later.status {i : Sale} {st : Status} (h : Crowdsale.stage i.status ≤ Crowdsale.stage st) :
    Later i { i with status := st } := { Later.refl i with stage := h }

/-- Every sale is still there, later in its life. -/
def Aged (s s' : St) : Prop :=
  (∀ id i, s.sale id = some i → ∃ j, s'.sale id = some j ∧ Later i j) ∧
  ∀ id, s.sale id = none → id < s'.next ∨ s'.sale id = none

theorem Aged.refl (s : St) : Aged s s := ⟨fun _ i h => ⟨i, h, Later.refl i⟩, fun _ h => .inr h⟩

theorem Aged.trans {s s1 s2 : St} (h : Aged s s1) (hn : s1.next ≤ s2.next) (g : Aged s1 s2) : Aged s s2 := by
  refine ⟨fun id i hi => ?_, fun id hi => ?_⟩
  · obtain ⟨j, hj, l1⟩ := h.1 id i hi
    obtain ⟨k, hk, l2⟩ := g.1 id j hj
    exact ⟨k, hk, l1.trans l2⟩
  · rcases h.2 id hi with h1 | h1
    · exact .inl (lt_of_lt_of_le h1 hn)
    · exact g.2 id h1

theorem Aged.same {s s' : St} (h : s'.sale = s.sale) : Aged s s' := by
  rw [Aged, h]; exact ⟨fun _ i hi => ⟨i, hi, Later.refl i⟩, fun _ hi => .inr hi⟩

theorem Aged.one {s s' : St} {id : Nat} {i j : Sale} (hi : s.sale id = some i) (hl : Later i j)
    (h : s'.sale = upd s.sale id (some j)) : Aged s s' := by
  rw [Aged, h]
  refine ⟨fun x i' hi' => ?_, fun x hx => .inr ?_⟩
  · by_cases e : x = id
    · subst e; rw [hi] at hi'; cases hi'
      exact ⟨j, upd_same _ _ _, hl⟩
    · exact ⟨i', by rw [upd_ne _ _ e]; exact hi', Later.refl i'⟩
  · have e : x ≠ id := by rintro rfl; rw [hi] at hx; cases hx
    rw [upd_ne _ _ e]; exact hx

theorem payVouchers_frame {s s' : St} {i : Sale} {who : Acct} {x supply n : Nat}
    (h : payVouchers s i who x supply = .ok (s', n)) : ∃ L, s' = { s with ledger := L } := by
  obtain ⟨L, _, _, rfl⟩ := payVouchers_ok h
  exact ⟨L, rfl⟩

theorem payLoop_frame {i : Sale} {id m : Nat} : ∀ (n : Nat) (s : St) (t : Nat),
    (payLoop i id m n s t).1.sale = s.sale ∧ (payLoop i id m n s t).1.next = s.next ∧
    (payLoop i id m n s t).1.ending = s.ending ∧ (payLoop i id m n s t).1.now = s.now ∧
    (payLoop i id m n s t).1.queue = s.queue
  | 0, s, t => ⟨rfl, rfl, rfl, rfl, rfl⟩
  | n + 1, s, t => by
    unfold payLoop
    split
    · exact ⟨rfl, rfl, rfl, rfl, rfl⟩
    · rename_i w ks hk
      dsimp only
      split
      · exact payLoop_frame n _ _
      · rename_i s2 a h
        obtain ⟨L, rfl⟩ := payVouchers_frame h
        exact payLoop_frame n _ _

/-- Closing one sale: the record, and nothing else of the pallet except queue and log. -/
theorem closeOne_frame (c : Cfg) (s : St) (id : Nat) :
    (closeOne c s id).next = s.next ∧ (closeOne c s id).now = s.now ∧ (closeOne c s id).ending = s.ending ∧
    ((closeOne c s id).sale = s.sale ∨ ∃ i st, s.sale id = some i ∧ i.isOpen ∧ 1 < stage st ∧
      (closeOne c s id).sale = upd s.sale id (some { i with status := st })) := by
  unfold closeOne
  split
  · exact ⟨rfl, rfl, rfl, .inl rfl⟩
  · rename_i i hi
    split
    · rename_i b hst
      split
      · exact ⟨rfl, rfl, rfl, .inl rfl⟩
      · split
        · exact ⟨rfl, rfl, rfl, .inl rfl⟩
        · split
          · exact ⟨rfl, rfl, rfl, .inl rfl⟩
          · split
            · exact ⟨rfl, rfl, rfl, .inr ⟨i, _, hi, ⟨b, hst⟩, by simp [stage], rfl⟩⟩
            · split
              · exact ⟨rfl, rfl, rfl, .inr ⟨i, _, hi, ⟨b, hst⟩, by simp [stage], rfl⟩⟩
              · exact ⟨rfl, rfl, rfl, .inr ⟨i, _, hi, ⟨b, hst⟩, by simp [stage], rfl⟩⟩
    · exact ⟨rfl, rfl, rfl, .inl rfl⟩

theorem closeOne_aged (c : Cfg) (s : St) (id : Nat) : Aged s (closeOne c s id) := by
  obtain ⟨_, _, _, h | ⟨i, st, hi, ⟨b, hst⟩, hs, h⟩⟩ := closeOne_frame c s id
  · exact Aged.same h
  · exact Aged.one hi (Later.status (by rw [hst]; show 1 ≤ _; omega)) h

theorem closeAll_frame (c : Cfg) : ∀ (l : List Nat) (s : St), (closeAll c s l).next = s.next ∧
    (closeAll c s l).now = s.now ∧ (closeAll c s l).ending = s.ending
  | [], _ => ⟨rfl, rfl, rfl⟩
  | id :: l, s => by
    obtain ⟨h1, h2, h3⟩ := closeAll_frame c l (closeOne c s id)
    obtain ⟨g1, g2, g3, _⟩ := closeOne_frame c s id
    exact ⟨h1.trans g1, h2.trans g2, h3.trans g3⟩

theorem closeAll_aged (c : Cfg) : ∀ (l : List Nat) (s : St), Aged s (closeAll c s l)
  | [], s => Aged.refl s
  | id :: l, s => (closeOne_aged c s id).trans (le_of_eq (closeAll_frame c l _).1.symm) (closeAll_aged c l _)

/-- What each operation does to the sale records. -/
theorem step_aged {c : Cfg} {s s' : St} {op : Op} (h : step c s op = .ok s') (hn : s.sale s.next = none) :
    Aged s s' ∧ s.next ≤ s'.next ∧ (∀ id, id < s'.next → id < s.next ∨ s'.sale id ≠ none) := by
  cases op with
  | launch who pay coll price dur v =>
    obtain ⟨k, m, L, _, _, _, _, _, _, _, _, _, _, _, rfl⟩ := launch_ok h
    refine ⟨⟨fun id i hi => ?_, fun id hi => ?_⟩, Nat.le_succ _, fun id hid => ?_⟩
    · have e : id ≠ s.next := by rintro rfl; rw [hn] at hi; cases hi
      exact ⟨i, by simp only [upd_ne _ _ e]; exact hi, Later.refl i⟩
    · by_cases e : id = s.next
      · left; subst e; exact Nat.lt_succ_self _
      · right; simp only [upd_ne _ _ e]; exact hi
    · by_cases e : id = s.next
      · right; subst e; simp
      · left; have : id < s.next + 1 := hid; omega
  | enable who id =>
    obtain ⟨i, b, h1, h2, h3, rfl⟩ := enable_ok h
    exact ⟨Aged.one h1 (Later.status (by rw [h2]; simp [stage])) rfl, le_refl _, fun _ h => .inl h⟩
  | participate who id x =>
    obtain ⟨i, b, L, h0, h1, h2, h3, rfl⟩ := participate_ok h
    refine ⟨Aged.one h1 ?_ rfl, le_refl _, fun _ h => .inl h⟩
    refine { Later.refl i with
      raised := fun hr => ?_
      frozen := fun hs => ?_ }
    · show i.raised ≤ satAdd i.raised x ∧ satAdd i.raised x < U128
      unfold satAdd
      simp only [U128] at *
      omega
    · rw [h2] at hs; exact absurd hs (by simp [stage])
  | distribute =>
    obtain ⟨id, rest, i, b, t, k, m, h1, h2, h3, h4, h5, h6⟩ := distribute_ok h
    obtain ⟨f1, f2, f3, f4, f5⟩ := payLoop_frame (i := i) (id := id) (m := m) c.maxPay s t
    dsimp only at h6
    rcases h6 with ⟨_, rfl⟩ | ⟨_, rfl⟩
    · refine ⟨(Aged.same f1).trans (le_refl _) ?_, le_of_eq f2.symm, fun _ hid => .inl ?_⟩
      · exact Aged.one (by rw [f1]; exact h2)
          (Later.status (st := .ended (payLoop i id m c.maxPay s t).1.now) (by rw [h3]; simp [stage])) rfl
      · rw [← f2]; exact hid
    · refine ⟨(Aged.same f1).trans (le_refl _) ?_, le_of_eq f2.symm, fun _ hid => .inl ?_⟩
      · exact Aged.one (by rw [f1]; exact h2)
          (Later.status (st := .distributing s.now (payLoop i id m c.maxPay s t).2.1) (by rw [h3]; simp [stage])) rfl
      · rw [← f2]; exact hid
  | claim who id =>
    obtain ⟨i, b, t, k, m, s2, n, h1, h2, h3, h4, h5, h6, h7⟩ := claim_ok h
    obtain ⟨L, rfl⟩ := payVouchers_frame h6
    rcases h7 with ⟨_, rfl⟩ | ⟨_, rfl⟩
    · exact ⟨Aged.one h1 (Later.status (st := .ended s.now) (by rw [h2]; simp [stage])) rfl, le_refl _,
        fun _ h => .inl h⟩
    · exact ⟨Aged.one h1 (Later.status (st := .distributing s.now (satAdd t n)) (by rw [h2]; simp [stage])) rfl,
        le_refl _, fun _ h => .inl h⟩
  | redeem who id q =>
    obtain ⟨i, k, L, _, _, _, _, _, _, _, _, rfl⟩ := redeem_ok h
    exact ⟨Aged.same rfl, le_refl _, fun _ h => .inl h⟩
  | proxy who id call =>
    obtain ⟨i, s1, _, _, _, h4, rfl⟩ := proxy_ok h
    obtain ⟨L, is, cs, rfl, _, _⟩ := run_frame h4
    exact ⟨Aged.same rfl, le_refl _, fun _ h => .inl h⟩
  | force id =>
    obtain ⟨i, b, h1, h2, rfl⟩ := force_ok h
    refine ⟨Aged.one h1 (Later.status ?_) rfl, le_refl _, fun _ h => .inl h⟩
    rw [h2]; split <;> simp [stage]
  | block =>
    cases h
    unfold block
    have f := (closeAll_frame c (s.ending (s.now + 1)) { s with
        now := s.now + 1
        ending := upd s.ending (s.now + 1) [] }).1
    refine ⟨?_, le_of_eq f.symm, fun id hid => .inl ?_⟩
    · exact (Aged.same (s' := { s with
        now := s.now + 1
        ending := upd s.ending (s.now + 1) [] }) rfl).trans (le_of_eq f.symm) (closeAll_aged c _ _)
    · rw [f] at hid
      exact hid
  | act who call =>
    obtain ⟨L, is, cs, rfl, _, _⟩ := run_frame h
    exact ⟨Aged.same rfl, le_refl _, fun _ h => .inl h⟩

/-- Ids below the counter have a record and ids above do not. -/
theorem reach_ids {c : Cfg} {G : St → Op → Prop} {g s : St} (h : Reach c G g s) :
    ∀ id, s.sale id ≠ none ↔ id < s.next := by
  induction h with
  | init hg => intro id; rw [hg.sale, hg.next]; simp
  | step hr hG hs ih =>
    rename_i s s' op
    have hn : s.sale s.next = none := by
      by_contra h
      exact absurd ((ih _).mp h) (lt_irrefl _)
    obtain ⟨⟨a1, a2⟩, a3, a4⟩ := step_aged hs hn
    intro id
    constructor
    · intro hne
      cases he : s.sale id with
      | none =>
        rcases a2 id he with h | h
        · exact h
        · exact absurd h hne
      | some i => exact lt_of_lt_of_le ((ih id).mp (by rw [he]; simp)) a3
    · intro hlt
      rcases a4 id hlt with h | h
      · have := (ih id).mpr h
        cases he : s.sale id with
        | none => exact absurd he this
        | some i =>
          obtain ⟨j, hj, _⟩ := a1 id i he
          rw [hj]; simp
      · exact h

end Verif.Crowdsale
