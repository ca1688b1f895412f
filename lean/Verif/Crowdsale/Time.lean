import Verif.Crowdsale.Life

/-!
# Closing on time (C51)
-/

namespace Verif.Crowdsale

/-- Closing sales does not touch the ones that are not listed. -/
theorem closeAll_other (c : Cfg) {id : Nat} : ∀ (l : List Nat) (s : St), id ∉ l → (closeAll c s l).sale id = s.sale id
  | [], _, _ => rfl
  | x :: xs, s, h => by
    simp only [List.mem_cons, not_or] at h
    show (closeAll c (closeOne c s x) xs).sale id = _
    rw [closeAll_other c xs _ h.2]
    obtain ⟨_, _, _, e | ⟨i, st, _, _, _, e⟩⟩ := closeOne_frame c s x
    · rw [e]
    · rw [e, upd_ne _ _ h.1]

/-- Closing creates no sales. -/
theorem closeAll_none (c : Cfg) {id : Nat} : ∀ (l : List Nat) (t : St), t.sale id = none → (closeAll c t l).sale id = none
  | [], _, h => h
  | x :: xs, t, ht => by
    refine closeAll_none c xs (closeOne c t x) ?_
    obtain ⟨_, _, _, e | ⟨i, st, g1, _, _, e⟩⟩ := closeOne_frame c t x
    · rw [e]; exact ht
    · rw [e]
      have : id ≠ x := by rintro rfl; rw [ht] at g1; cases g1
      rw [upd_ne _ _ this]; exact ht

/-- A sale that is open after closing sales was open before, with the same record. -/
theorem closeAll_open (c : Cfg) {id : Nat} {j : Sale} : ∀ (l : List Nat) (s : St),
    (closeAll c s l).sale id = some j → j.isOpen → s.sale id = some j
  | [], _, h, _ => h
  | x :: xs, s, h, ho => by
    have h1 := closeAll_open c xs (closeOne c s x) h ho
    obtain ⟨_, _, _, e | ⟨i, st, g1, g2, g3, e⟩⟩ := closeOne_frame c s x
    · rw [e] at h1; exact h1
    · rw [e] at h1
      by_cases ex : id = x
      · subst ex; rw [upd_same] at h1; cases h1
        obtain ⟨b, hb⟩ := ho
        dsimp only at hb
        rw [hb] at g3
        exact absurd g3 (by simp [stage])
      · rw [upd_ne _ _ ex] at h1; exact h1

/-- Closing a sale succeeds. -/
theorem closeOne_closes {c : Cfg} {s : St} {id : Nat} (H : Inv c s) {j : Sale}
    (h : (closeOne c s id).sale id = some j) : ¬ j.isOpen := by
  by_cases ho : ∃ i, s.sale id = some i ∧ i.isOpen
  · obtain ⟨i, hi, ho⟩ := ho
    obtain ⟨k, m, K⟩ := H.sales id i hi
    obtain ⟨L, L2, st, q, es, h1, h2, h3, h4⟩ := closeOne_open hi K ho
    rw [h4] at h
    simp only [upd_same] at h
    cases h
    rintro ⟨b, hb⟩
    cases h3 <;> cases hb
  · have hn : ∀ i, s.sale id = some i → ¬ i.isOpen := fun i hi hop => ho ⟨i, hi, hop⟩
    rw [closeOne_skip hn] at h
    exact hn j h

/-- Every listed sale is closed. -/
theorem closeAll_closes {c : Cfg} {id : Nat} {j : Sale} : ∀ (l : List Nat) (s : St), Inv c s → id ∈ l →
    (closeAll c s l).sale id = some j → ¬ j.isOpen
  | [], _, _, h, _ => by cases h
  | x :: xs, s, H, h, hj => by
    intro ho
    by_cases hx : id ∈ xs
    · exact closeAll_closes xs (closeOne c s x) (closeOne_inv H) hx hj ho
    · have : id = x := by
        rcases List.mem_cons.mp h with h | h
        · exact h
        · exact absurd h hx
      subst this
      have h1 : (closeAll c (closeOne c s id) xs).sale id = some j := hj
      rw [closeAll_other c xs _ hx] at h1
      exact closeOne_closes H h1 ho

/-- The part of a step that matters for the schedule, for operations other than `launch`, `enable` and `block`. -/
structure Still (s s' : St) : Prop where
  now : s'.now = s.now
  ending : s'.ending = s.ending
  back : ∀ id j, s'.sale id = some j → ∃ i, s.sale id = some i ∧ j.duration = i.duration ∧
    (stage j.status ≤ 1 → j.status = i.status)
  fwd : ∀ id i, s.sale id = some i → i.isOpen → ∃ j, s'.sale id = some j ∧ j.status = i.status

theorem Still.same {s s' : St} (h1 : s'.now = s.now) (h2 : s'.ending = s.ending) (h3 : s'.sale = s.sale) :
    Still s s' where
  now := h1
  ending := h2
  back id j hj := ⟨j, by rw [← h3]; exact hj, rfl, fun _ => rfl⟩
  fwd id i hi _ := ⟨i, by rw [h3]; exact hi, rfl⟩

theorem Still.one {s s' : St} {x : Nat} {i y : Sale} (h1 : s'.now = s.now) (h2 : s'.ending = s.ending)
    (h3 : s'.sale = upd s.sale x (some y)) (h4 : s.sale x = some i) (h5 : y.duration = i.duration)
    (h6 : stage y.status ≤ 1 → y.status = i.status) (h7 : i.isOpen → y.status = i.status) : Still s s' where
  now := h1
  ending := h2
  back id j hj := by
    rw [h3] at hj
    by_cases e : id = x
    · subst e; rw [upd_same] at hj; cases hj
      exact ⟨i, h4, h5, h6⟩
    · rw [upd_ne _ _ e] at hj
      exact ⟨j, hj, rfl, fun _ => rfl⟩
  fwd id j hj ho := by
    rw [h3]
    by_cases e : id = x
    · subst e; rw [h4] at hj; cases hj
      exact ⟨y, upd_same _ _ _, h7 ho⟩
    · exact ⟨j, by rw [upd_ne _ _ e]; exact hj, rfl⟩

theorem step_still {c : Cfg} {s s' : St} {op : Op} (h : step c s op = .ok s')
    (h1 : ∀ who pay coll price dur v, op ≠ .launch who pay coll price dur v) (h2 : ∀ who id, op ≠ .enable who id)
    (h3 : op ≠ .block) : Still s s' := by
  cases op with
  | launch who pay coll price dur v => exact absurd rfl (h1 who pay coll price dur v)
  | enable who id => exact absurd rfl (h2 who id)
  | block => exact absurd rfl h3
  | participate who id x =>
    obtain ⟨i, b, L, _, e1, e2, _, rfl⟩ := participate_ok h
    exact Still.one rfl rfl rfl e1 rfl (fun _ => rfl) (fun _ => rfl)
  | distribute =>
    obtain ⟨id, rest, i, b, t, k, m, _, e2, e3, _, _, e6⟩ := distribute_ok h
    obtain ⟨f1, f2, f3, f4, f5⟩ := payLoop_frame (i := i) (id := id) (m := m) c.maxPay s t
    have hno : ∀ st : Status, i.isOpen → st = i.status := by
      rintro st ⟨b', hb⟩; rw [e3] at hb; cases hb
    dsimp only at e6
    rcases e6 with ⟨_, rfl⟩ | ⟨_, rfl⟩
    · refine Still.one (x := id) (i := i)
        (y := { i with status := .ended (payLoop i id m c.maxPay s t).1.now }) f4 f3 ?_ e2 rfl
        (fun hst => absurd hst (by simp [stage])) (hno _)
      rw [← f1]; rfl
    · refine Still.one (x := id) (i := i)
        (y := { i with status := .distributing s.now (payLoop i id m c.maxPay s t).2.1 }) f4 f3 ?_ e2 rfl
        (fun hst => absurd hst (by simp [stage])) (hno _)
      rw [← f1]
  | claim who id =>
    obtain ⟨i, b, t, k, m, s2, n, e1, e2, _, _, _, e6, e7⟩ := claim_ok h
    obtain ⟨L, rfl⟩ := payVouchers_frame e6
    have hno : ∀ st : Status, i.isOpen → st = i.status := by
      rintro st ⟨b', hb⟩; rw [e2] at hb; cases hb
    rcases e7 with ⟨_, rfl⟩ | ⟨_, rfl⟩
    · exact Still.one (x := id) (i := i) (y := { i with status := .ended s.now }) rfl rfl rfl e1 rfl
        (fun hst => absurd hst (by simp [stage])) (hno _)
    · exact Still.one (x := id) (i := i) (y := { i with status := .distributing s.now (satAdd t n) }) rfl rfl rfl e1
        rfl (fun hst => absurd hst (by simp [stage])) (hno _)
  | redeem who id q =>
    obtain ⟨i, k, L, _, _, _, _, _, _, _, _, rfl⟩ := redeem_ok h
    exact Still.same rfl rfl rfl
  | proxy who id call =>
    obtain ⟨i, s1, _, _, _, h4, rfl⟩ := proxy_ok h
    obtain ⟨L, is, cs, rfl, _, _⟩ := run_frame h4
    exact Still.same rfl rfl rfl
  | force id =>
    obtain ⟨i, b, e1, e2, rfl⟩ := force_ok h
    refine Still.one (x := id) (i := i) (y := { i with
      status := if i.raised = 0 then .ended s.now else .distributing s.now 0 }) rfl rfl rfl e1 rfl ?_ ?_
    · intro hst; exfalso; revert hst; dsimp only; split <;> simp [stage]
    · rintro ⟨b', hb⟩; rw [e2] at hb; cases hb
  | act who call =>
    obtain ⟨L, is, cs, rfl, _, _⟩ := run_frame h
    exact Still.same rfl rfl rfl

/-- Open sales are scheduled to close later. -/
structure TimeInv (s : St) : Prop where
  dur : ∀ id i, s.sale id = some i → 1 ≤ i.duration
  due : ∀ id i b, s.sale id = some i → i.status = .enabled b →
    s.now < min (i.duration + b) (U32 - 1) ∧ id ∈ s.ending (min (i.duration + b) (U32 - 1))

theorem TimeInv.init {s : St} (h : Genesis s) : TimeInv s where
  dur id i hi := by rw [h.sale] at hi; cases hi
  due id i b hi := by rw [h.sale] at hi; cases hi

theorem block_now (c : Cfg) (s : St) : (block c s).now = s.now + 1 ∧
    (block c s).ending = upd s.ending (s.now + 1) [] := by
  unfold block
  obtain ⟨_, h2, h3⟩ := closeAll_frame c (s.ending (s.now + 1)) { s with
    now := s.now + 1
    ending := upd s.ending (s.now + 1) [] }
  exact ⟨h2, h3⟩

theorem TimeInv.step {c : Cfg} {s s' : St} {op : Op} (H : Inv c s) (T : TimeInv s) (hG : Timed c s op)
    (h : Crowdsale.step c s op = .ok s') : TimeInv s' := by
  obtain ⟨_, g2, g3⟩ := hG
  by_cases h1 : ∀ who pay coll price dur v, op ≠ .launch who pay coll price dur v
  · by_cases h2 : ∀ who id, op ≠ .enable who id
    · by_cases h3 : op = .block
      · subst h3
        cases h
        obtain ⟨b1, b2⟩ := block_now c s
        have hback : ∀ id j, (block c s).sale id = some j → ∃ i, s.sale id = some i ∧ j.duration = i.duration := by
          intro id j hj
          have ag := closeAll_aged c (s.ending (s.now + 1)) { s with
            now := s.now + 1
            ending := upd s.ending (s.now + 1) [] }
          cases hs : s.sale id with
          | none =>
            unfold block at hj
            have := closeAll_none c (s.ending (s.now + 1)) { s with
              now := s.now + 1
              ending := upd s.ending (s.now + 1) [] } hs
            rw [this] at hj; cases hj
          | some i =>
            obtain ⟨j', hj', hl⟩ := ag.1 id i hs
            unfold block at hj
            rw [hj'] at hj; cases hj
            exact ⟨i, rfl, hl.duration⟩
        refine ⟨fun id j hj => ?_, fun id j b hj hst => ?_⟩
        · obtain ⟨i, hi, e⟩ := hback id j hj
          rw [e]; exact T.dur id i hi
        · have hs : s.sale id = some j := by
            unfold block at hj
            have := closeAll_open c _ _ hj ⟨b, hst⟩
            exact this
          obtain ⟨t1, t2⟩ := T.due id j b hs hst
          have hne : min (j.duration + b) (U32 - 1) ≠ s.now + 1 := by
            intro e
            rw [e] at t2
            have H0 : Inv c { s with
                now := s.now + 1
                ending := upd s.ending (s.now + 1) [] } :=
              Inv.all H H.sound H.fresh rfl H.nodupQ (fun j => { Quiet.refl c j s with sale := rfl })
            unfold block at hj
            exact closeAll_closes _ _ H0 t2 hj ⟨b, hst⟩
          rw [b1, b2, upd_ne _ _ hne]
          exact ⟨by omega, t2⟩
      · have S := step_still h h1 h2 h3
        refine ⟨fun id j hj => ?_, fun id j b hj hst => ?_⟩
        · obtain ⟨i, hi, e, _⟩ := S.back id j hj
          rw [e]; exact T.dur id i hi
        · obtain ⟨i, hi, e, e2⟩ := S.back id j hj
          have e3 := e2 (by rw [hst]; simp [stage])
          rw [S.now, S.ending, e]
          exact T.due id i b hi (e3 ▸ hst)
    · push Not at h2
      obtain ⟨who, id, rfl⟩ := h2
      obtain ⟨i, b, e1, e2, e3, rfl⟩ := enable_ok h
      refine ⟨fun x j hj => ?_, fun x j b' hj hst => ?_⟩
      · by_cases e : x = id
        · subst e; simp only [upd_same] at hj; cases hj
          exact T.dur x i e1
        · simp only [upd_ne _ _ e] at hj; exact T.dur x j hj
      · by_cases e : x = id
        · subst e; simp only [upd_same] at hj; cases hj
          cases hst
          have hd := T.dur x i e1
          refine ⟨?_, ?_⟩
          · show s.now < min (i.duration + s.now) (U32 - 1)
            simp only [U32] at *
            omega
          · simp
        · simp only [upd_ne _ _ e] at hj
          obtain ⟨t1, t2⟩ := T.due x j b' hj hst
          refine ⟨t1, ?_⟩
          show x ∈ upd s.ending _ _ _
          rw [upd_apply]
          split
          · rename_i e; rw [← e]; exact List.mem_append_left _ t2
          · exact t2
  · push Not at h1
    obtain ⟨who, pay, coll, price, dur, v, rfl⟩ := h1
    obtain ⟨k, m, L, _, _, _, _, _, _, _, _, _, _, _, rfl⟩ := launch_ok h
    refine ⟨fun x j hj => ?_, fun x j b' hj hst => ?_⟩
    · by_cases e : x = s.next
      · subst e; simp only [upd_same] at hj; cases hj
        show 1 ≤ dur
        rcases Nat.eq_zero_or_pos dur with h0 | h0
        · subst h0; exact absurd rfl (g2 who pay coll price v)
        · exact h0
      · simp only [upd_ne _ _ e] at hj; exact T.dur x j hj
    · by_cases e : x = s.next
      · subst e; simp only [upd_same] at hj; cases hj
        cases hst
      · simp only [upd_ne _ _ e] at hj; exact T.due x j b' hj hst

theorem reach_time {c : Cfg} (hl : Limits c) {g s : St} (h : Reach c (Timed c) g s) : TimeInv s := by
  induction h with
  | init hg => exact TimeInv.init hg
  | step hr hG hs ih => exact ih.step (reach_inv hl (hr.weaken fun _ _ h => h.1)) hG hs

/-- Only sales that were opened are scheduled. -/
theorem reach_listed {c : Cfg} {G : St → Op → Prop} {g s : St} (h : Reach c G g s) :
    ∀ b id, id ∈ s.ending b → ∃ i, s.sale id = some i ∧ 1 ≤ stage i.status := by
  induction h with
  | init hg => intro b id hm; rw [hg.ending] at hm; cases hm
  | step hr hG hs ih =>
    rename_i s s' op
    have hn : s.sale s.next = none := by
      by_contra h
      exact absurd ((reach_ids hr _).mp h) (lt_irrefl _)
    have ag := (step_aged hs hn).1.1
    have old : ∀ b id, id ∈ s.ending b → ∃ i, s'.sale id = some i ∧ 1 ≤ stage i.status := by
      intro b id hm
      obtain ⟨i, hi, h1⟩ := ih b id hm
      obtain ⟨j, hj, hl⟩ := ag id i hi
      exact ⟨j, hj, le_trans h1 hl.stage⟩
    intro b id hm
    by_cases h1 : ∀ who pay coll price dur v, op ≠ .launch who pay coll price dur v
    · by_cases h2 : ∀ who id, op ≠ .enable who id
      · by_cases h3 : op = .block
        · subst h3
          cases hs
          rw [(block_now c s).2, upd_apply] at hm
          split at hm
          · cases hm
          · exact old b id hm
        · rw [(step_still hs h1 h2 h3).ending] at hm
          exact old b id hm
      · push Not at h2
        obtain ⟨who, x, rfl⟩ := h2
        obtain ⟨i, b', e1, e2, e3, rfl⟩ := enable_ok hs
        have hm' : id ∈ upd s.ending (min (i.duration + s.now) (U32 - 1))
          (s.ending (min (i.duration + s.now) (U32 - 1)) ++ [x]) b := hm
        rw [upd_apply] at hm'
        split at hm'
        · rcases List.mem_append.mp hm' with h | h
          · exact old _ id h
          · cases List.mem_singleton.mp h
            exact ⟨_, upd_same _ _ _, by simp [stage]⟩
        · exact old b id hm'
    · push Not at h1
      obtain ⟨who, pay, coll, price, dur, v, rfl⟩ := h1
      obtain ⟨k, m, L, _, _, _, _, _, _, _, _, _, _, _, rfl⟩ := launch_ok hs
      exact old b id hm

/-- An open sale with no closing block ahead of it. -/
structure Stuck (s : St) (id : Nat) : Prop where
  sale : ∃ i, s.sale id = some i ∧ i.isOpen
  ending : ∀ b, s.now < b → id ∉ s.ending b

theorem Stuck.step {c : Cfg} {s s' : St} {op : Op} {id : Nat} (T : Stuck s id) (hn : s.sale s.next = none)
    (h : Crowdsale.step c s op = .ok s') : Stuck s' id := by
  obtain ⟨i, hi, ho⟩ := T.sale
  by_cases h1 : ∀ who pay coll price dur v, op ≠ .launch who pay coll price dur v
  · by_cases h2 : ∀ who id, op ≠ .enable who id
    · by_cases h3 : op = .block
      · subst h3
        cases h
        obtain ⟨b1, b2⟩ := block_now c s
        refine ⟨⟨i, ?_, ho⟩, fun b hb => ?_⟩
        · unfold block
          rw [closeAll_other c _ _ (T.ending _ (Nat.lt_succ_self _))]
          exact hi
        · rw [b1] at hb
          rw [b2, upd_ne _ _ (by omega)]
          exact T.ending b (by omega)
      · have S := step_still h h1 h2 h3
        obtain ⟨j, hj, e⟩ := S.fwd id i hi ho
        refine ⟨⟨j, hj, ?_⟩, ?_⟩
        · obtain ⟨b, hb⟩ := ho; exact ⟨b, e.trans hb⟩
        · rw [S.now, S.ending]; exact T.ending
    · push Not at h2
      obtain ⟨who, x, rfl⟩ := h2
      obtain ⟨i', b', e1, e2, e3, rfl⟩ := enable_ok h
      have hx : id ≠ x := by
        rintro rfl; rw [hi] at e1; cases e1
        obtain ⟨b, hb⟩ := ho; rw [e2] at hb; cases hb
      refine ⟨⟨i, by simp only [upd_ne _ _ hx]; exact hi, ho⟩, fun b hb => ?_⟩
      intro hm
      have hm' : id ∈ upd s.ending (min (i'.duration + s.now) (U32 - 1))
          (s.ending (min (i'.duration + s.now) (U32 - 1)) ++ [x]) b := hm
      rw [upd_apply] at hm'
      split at hm'
      · rename_i eb
        rcases List.mem_append.mp hm' with h | h
        · exact T.ending _ (by rw [← eb]; exact hb) h
        · exact hx (List.mem_singleton.mp h)
      · exact T.ending b hb hm'
  · push Not at h1
    obtain ⟨who, pay, coll, price, dur, v, rfl⟩ := h1
    obtain ⟨k, m, L, _, _, _, _, _, _, _, _, _, _, _, rfl⟩ := launch_ok h
    have hx : id ≠ s.next := by rintro rfl; rw [hn] at hi; cases hi
    exact ⟨⟨i, by simp only [upd_ne _ _ hx]; exact hi, ho⟩, T.ending⟩

end Verif.Crowdsale
