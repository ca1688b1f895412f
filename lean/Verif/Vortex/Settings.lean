import Verif.Vortex.Demo

/-! # C209: the settings of a vortex distribution -/

namespace Verif.Vortex

variable {c : Cfg}

/-! ## Specification -/

/-- The price a list of settings gives an asset: the last one named, or the one before. -/
def lastPrice (a : AssetId) (old : Nat) : List (AssetId × Nat) → Nat
  | [] => old
  | p :: ps => lastPrice a (if p.1 = a then p.2 else old) ps

/-- Root or the admin. -/
def Manager (s : St) (o : Origin) : Prop := o = none ∨ ∃ w, o = some w ∧ s.admin = some w

/-- All there is to know of a distribution's settings is as before. -/
def SameSettings (s s' : St) (id : Nat) : Prop :=
  s'.eras id = s.eras id ∧ s'.priced id = s.priced id ∧ s'.price id = s.price id

/-! ## Proofs -/

theorem foldl_addPrice (ps : List (AssetId × Nat)) : ∀ (m : List AssetId × (AssetId → Nat)) (a : AssetId),
    (a ∈ (ps.foldl addPrice m).1 ↔ a ∈ m.1 ∨ ∃ p ∈ ps, p.1 = a) ∧
    (ps.foldl addPrice m).2 a = lastPrice a (m.2 a) ps := by
  induction ps with
  | nil => intro m a; simp [lastPrice]
  | cons p ps ih =>
    intro m a
    rw [List.foldl_cons]
    obtain ⟨h1, h2⟩ := ih (addPrice m p) a
    refine ⟨?_, ?_⟩
    · rw [h1]
      have e : a ∈ (addPrice m p).1 ↔ a ∈ m.1 ∨ p.1 = a := by
        unfold addPrice
        by_cases hm : p.1 ∈ m.1
        · rw [if_pos hm]
          exact ⟨.inl, fun h => h.elim id (fun h => h ▸ hm)⟩
        · rw [if_neg hm, List.mem_append, List.mem_singleton]
          exact ⟨fun h => h.imp id Eq.symm, fun h => h.imp id Eq.symm⟩
      rw [e, List.exists_mem_cons_iff, or_assoc]
    · rw [h2]
      show lastPrice a (upd m.2 p.1 p.2 a) ps = lastPrice a (if p.1 = a then p.2 else m.2 a) ps
      by_cases h : p.1 = a
      · subst h; rw [if_pos rfl, upd_same]
      · rw [if_neg h, upd_ne _ _ (fun e => h e.symm)]

/-- C209: setting the period sets exactly that. -/
theorem C209_eras {s s' : St} {o : Origin} {id a b : Nat} (hs : step c s (.setEras o id a b) = .ok s') :
    Manager s o ∧ a ≤ b ∧ s'.eras id = (a, b) ∧ (∀ i, i ≠ id → s'.eras i = s.eras i) ∧ s' = { s with eras := s'.eras } := by
  simp only [step, setEras, bind_ok, ensure_ok, pure_ok] at hs
  obtain ⟨_, h1, _, h2, rfl⟩ := hs
  exact ⟨rootOrAdmin_ok h1, h2, upd_same _ _ _, fun i hi => upd_ne _ _ hi, rfl⟩

/-- C209: setting prices adds the assets named to those of the distribution and gives each the last price named. -/
theorem C209_prices {s s' : St} {o : Origin} {ps : List (AssetId × Nat)} {id : Nat} (hs : step c s (.setPrices o ps id) = .ok s') :
    Manager s o ∧ (∀ p ∈ ps, p.1 ≠ c.vtx) ∧
      (∀ a, a ∈ s'.priced id ↔ a ∈ s.priced id ∨ ∃ p ∈ ps, p.1 = a) ∧
      (∀ a, s'.price id a = lastPrice a (s.price id a) ps) ∧
      (∀ i, i ≠ id → SameSettings s s' i) ∧ s' = { s with priced := s'.priced, price := s'.price } := by
  obtain ⟨h1, h2, rfl⟩ := setPrices_ok hs
  refine ⟨rootOrAdmin_ok h1, h2, fun a => ?_, fun a => ?_, fun i hi => ⟨rfl, upd_ne _ _ hi, upd_ne _ _ hi⟩, rfl⟩
  · dsimp only
    rw [upd_same]
    exact (foldl_addPrice ps _ a).1
  · dsimp only
    rw [upd_same]
    exact (foldl_addPrice ps (s.priced id, s.price id) a).2

/-- C209: no other call touches the settings. -/
theorem C209_others {s s' : St} {op : Op} (hs : step c s op = .ok s') (id : Nat) :
    SameSettings s s' id ∨ (∃ o a b, op = .setEras o id a b) ∨ ∃ o ps, op = .setPrices o ps id := by
  cases op with
  | setAdmin o n => obtain ⟨_, rfl⟩ := setAdmin_ok hs; exact .inl ⟨rfl, rfl, rfl⟩
  | create o => obtain ⟨_, _, rfl⟩ := create_ok hs; exact .inl ⟨rfl, rfl, rfl⟩
  | disable o i => obtain ⟨_, _, rfl⟩ := disable_ok hs; exact .inl ⟨rfl, rfl, rfl⟩
  | start o i => obtain ⟨_, _, L, _, rfl⟩ := start_ok hs; exact .inl ⟨rfl, rfl, rfl⟩
  | pay i b =>
    obtain ⟨_, hp⟩ := pay_ok hs
    rcases hp with ⟨_, rfl⟩ | ⟨h1, _, rfl⟩ | ⟨_, _, rfl⟩ <;> exact .inl ⟨rfl, rfl, rfl⟩
  | setEras o i a b =>
    by_cases e : id = i
    · subst e; exact .inr (.inl ⟨o, a, b, rfl⟩)
    · obtain ⟨_, _, _, h, h'⟩ := C209_eras hs
      have h4 : s'.priced = s.priced := by rw [h']
      have h5 : s'.price = s.price := by rw [h']
      exact .inl ⟨h id e, by rw [h4], by rw [h5]⟩
  | setPrices o ps i =>
    by_cases e : id = i
    · subst e; exact .inr (.inr ⟨o, ps, rfl⟩)
    · exact .inl ((C209_prices hs).2.2.2.2.1 id e)
  | register o i rs => obtain ⟨_, _, rfl⟩ := register_ok hs; exact .inl ⟨rfl, rfl, rfl⟩
  | trigger o i => obtain ⟨_, _, L1, L2, _, _, rfl⟩ := trigger_ok hs; exact .inl ⟨rfl, rfl, rfl⟩
  | redeem w i v => obtain ⟨_, _, _, _, L1, L2, _, _, rfl⟩ := redeem_ok hs; exact .inl ⟨rfl, rfl, rfl⟩
  | nextBlock => cases hs; exact .inl ⟨rfl, rfl, rfl⟩
  | move a x y n =>
    simp only [step, bind_ok, pure_ok] at hs
    obtain ⟨L, _, rfl⟩ := hs; exact .inl ⟨rfl, rfl, rfl⟩
  | mint a y n =>
    simp only [step, bind_ok, pure_ok] at hs
    obtain ⟨L, _, rfl⟩ := hs; exact .inl ⟨rfl, rfl, rfl⟩
  | burn a x n =>
    simp only [step, bind_ok, pure_ok] at hs
    obtain ⟨L, _, rfl⟩ := hs; exact .inl ⟨rfl, rfl, rfl⟩

/-- C209: a period never ends before it begins. -/
theorem C209_period {g s : St} (h : Reach c Any g s) (hg : ∀ id, g.eras id = (0, 0)) (id : Nat) :
    (s.eras id).1 ≤ (s.eras id).2 := by
  induction h with
  | init _ => rw [hg id]
  | @step s s' op _ _ hs ih =>
    rcases C209_others hs id with ⟨e, _⟩ | ⟨o, a, b, rfl⟩ | ⟨o, ps, rfl⟩
    · rw [e]; exact ih
    · obtain ⟨_, h1, h2, _⟩ := C209_eras hs
      rw [h2]; exact h1
    · have h5 : s'.eras = s.eras := by rw [(C209_prices hs).2.2.2.2.2]
      rw [h5]; exact ih

/-- Non-vacuity: the admin sets both and overwrites them. -/
example : (exec cd g0 (fill ++ [.setEras (some 9) 0 3 5, .setEras (some 9) 0 5 3, .setPrices (some 9) [(4, 1), (2, 8), (4, 2)] 0])).eras 0 = (3, 5) ∧
    (exec cd g0 (fill ++ [.setPrices (some 9) [(4, 1), (2, 8), (4, 2)] 0])).priced 0 = [2, 4] ∧
    (exec cd g0 (fill ++ [.setPrices (some 9) [(4, 1), (2, 8), (4, 2)] 0])).price 0 4 = 2 ∧
    errIs (step cd s1 (.setEras (some 9) 0 5 3)) "InvalidEndBlock" = true ∧
    errIs (step cd s1 (.setEras (some 8) 0 3 5)) "RequireAdmin" = true := by decide +kernel

/-- C209 fails in full: the settings can change after a distribution has been paid out. Account 11 redeems a third of the
vortex; then the admin adds an asset the vault had all along, and account 10 redeems less vortex for a share of it that account
11 never got. -/
theorem C209_fixed_refuted :
    ∃ s, Reach cd Any g0 s ∧ s.status 0 = .done ∧ s.priced 0 = [2] ∧
      (exec cd s [.redeem 11 0 30]).ledger.bal 1 11 = 0 ∧
      (exec cd s [.redeem 11 0 30, .setPrices (some 9) [(1, 5)] 0]).priced 0 = [2, 1] ∧
      (exec cd s [.redeem 11 0 30, .setPrices (some 9) [(1, 5)] 0, .redeem 10 0 20]).ledger.bal 1 10 = 16 := by
  refine ⟨s4, demo _, ?_⟩
  decide +kernel

end Verif.Vortex
