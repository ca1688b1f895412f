import Verif.Xls20.Props2

/-!
# C226: while storage is migrated the XLS-20 records are left alone
-/

namespace Verif.Xls20

theorem request_ids {c : Cfg} {s s' : St} {n : Nft.St} {who : Acct} {id : Nat} {ns : List Nat} (h : request c s n who id ns = .ok s') :
    s'.ids = s.ids ∧ s'.colls = s.colls ∧ s'.migrating = s.migrating := by
  simp only [request, bind_ok, pure_ok] at h
  obtain ⟨_, _, rfl⟩ := h
  exact ⟨rfl, rfl, rfl⟩

theorem nftStep_ids {c : Cfg} {s s' : St} {op : Nft.Op} (h : nftStep c s op = .ok s') :
    s'.ids = s.ids ∧ s'.colls = s.colls ∧ s'.migrating = s.migrating := by
  cases op with
  | mint who id q rcv ext =>
    simp only [nftStep, mint, bind_ok, okOr_ok] at h
    obtain ⟨n, _, k, _, h⟩ := h
    split at h
    · exact request_ids h
    · simp only [pure_ok] at h
      subst h
      exact ⟨rfl, rfl, rfl⟩
  | _ =>
    simp only [nftStep] at h
    generalize Nft.step c.nft s.nft _ = r at h
    cases r with
    | error e => cases h
    | ok n => cases h; exact ⟨rfl, rfl, rfl⟩

/-- **C226 (nothing is written or read).** While a storage migration runs, no step changes the record of an XLS-20 id, only root's own call
changes the mapping of collections, and no withdrawal, which would read these records, makes an offer. -/
theorem C226_still {c : Cfg} {w w' : World} {op : Op} (hm : w.st.migrating = true) (h : step c w op = .ok w') :
    w'.st.ids = w.st.ids ∧ (w'.st.colls = w.st.colls ∨ ∃ l, op = .setMappings l) ∧ w'.offers.length ≤ w.offers.length := by
  cases op with
  | deposit rcv t =>
    simp only [step, Except.ok.injEq] at h
    subst h
    simp only [deposit, hm, if_true]
    exact ⟨trivial, .inl trivial, Nat.le_refl _⟩
  | withdraw who id n dest ok =>
    simp only [step, bind_ok, withdraw, ensure_ok, okOr_ok, idOf, hm, if_true] at h
    obtain ⟨_, ⟨_, _, _, _, _, _, _, q, _⟩, _⟩ := h
    cases q
  | accept i =>
    simp only [step, bind_ok, okOr_ok, pure_ok] at h
    obtain ⟨_, _, rfl⟩ := h
    exact ⟨rfl, .inl rfl, List.length_eraseIdx_le _ _⟩
  | reRequest who id ns =>
    simp only [step, bind_ok, reRequest, ensure_ok] at h
    obtain ⟨_, ⟨_, _, _, q, _⟩, _⟩ := h
    rw [hm] at q
    cases q
  | fulfil who id l =>
    simp only [step, bind_ok, fulfil, ensure_ok] at h
    obtain ⟨_, ⟨_, _, _, q, _⟩, _⟩ := h
    rw [hm] at q
    cases q
  | setRelayer r =>
    simp only [step, Except.ok.injEq] at h
    subst h
    exact ⟨rfl, .inl rfl, Nat.le_refl _⟩
  | setFee r =>
    simp only [step, Except.ok.injEq] at h
    subst h
    exact ⟨rfl, .inl rfl, Nat.le_refl _⟩
  | setMappings l =>
    simp only [step, Except.ok.injEq] at h
    subst h
    exact ⟨rfl, .inr ⟨l, rfl⟩, Nat.le_refl _⟩
  | migration b =>
    simp only [step, Except.ok.injEq] at h
    subst h
    exact ⟨rfl, .inl rfl, Nat.le_refl _⟩
  | nft op =>
    simp only [step, bind_ok, pure_ok] at h
    obtain ⟨s, h1, rfl⟩ := h
    obtain ⟨a, b, _⟩ := nftStep_ids h1
    exact ⟨a, .inl b, Nat.le_refl _⟩

/-- **C226 (refused).** Meanwhile the calls that need the records fail, for everybody and with any arguments, and a deposit changes nothing on
the chain. -/
theorem C226_refused {c : Cfg} {w : World} (hm : w.st.migrating = true) :
    (∀ who id ns w', step c w (.reRequest who id ns) ≠ .ok w') ∧ (∀ who id l w', step c w (.fulfil who id l) ≠ .ok w') ∧
    (∀ who id n dest ok w', step c w (.withdraw who id n dest ok) ≠ .ok w') ∧
    ∀ rcv t w', step c w (.deposit rcv t) = .ok w' → w'.st = w.st := by
  refine ⟨?_, ?_, ?_, ?_⟩
  · intro who id ns w' h
    simp only [step, bind_ok, reRequest, ensure_ok] at h
    obtain ⟨_, ⟨_, _, _, q, _⟩, _⟩ := h
    rw [hm] at q
    cases q
  · intro who id l w' h
    simp only [step, bind_ok, fulfil, ensure_ok] at h
    obtain ⟨_, ⟨_, _, _, q, _⟩, _⟩ := h
    rw [hm] at q
    cases q
  · intro who id n dest ok w' h
    simp only [step, bind_ok, withdraw, ensure_ok, okOr_ok, idOf, hm, if_true] at h
    obtain ⟨_, ⟨_, _, _, _, _, _, _, q, _⟩, _⟩ := h
    cases q
  · intro rcv t w' h
    simp only [step, Except.ok.injEq] at h
    subst h
    simp only [deposit, hm, if_true]

/-- Histories during a migration. -/
inductive During (c : Cfg) : World → World → Prop
  | nil {w : World} : During c w w
  | step {w w1 w' : World} {op : Op} : During c w w1 → op ≠ .migration false → step c w1 op = .ok w' → During c w w'

theorem migrating_step {c : Cfg} {w w' : World} {op : Op} (hm : w.st.migrating = true) (hne : op ≠ .migration false)
    (h : step c w op = .ok w') : w'.st.migrating = true := by
  cases op with
  | deposit rcv t =>
    rw [(C226_refused (c := c) hm).2.2.2 rcv t w' h]; exact hm
  | withdraw who id n dest ok => exact absurd h ((C226_refused hm).2.2.1 _ _ _ _ _ _)
  | accept i =>
    simp only [step, bind_ok, okOr_ok, pure_ok] at h
    obtain ⟨_, _, rfl⟩ := h
    exact hm
  | reRequest who id ns => exact absurd h ((C226_refused hm).1 _ _ _ _)
  | fulfil who id l => exact absurd h ((C226_refused hm).2.1 _ _ _ _)
  | setRelayer r => cases h; exact hm
  | setFee r => cases h; exact hm
  | setMappings l => cases h; exact hm
  | migration b =>
    cases h
    cases b with
    | true => rfl
    | false => exact absurd rfl hne
  | nft op =>
    simp only [step, bind_ok, pure_ok] at h
    obtain ⟨s, h1, rfl⟩ := h
    exact (nftStep_ids h1).2.2.trans hm

/-- **C226 (all along).** From the start of a migration to its end, whatever happens, every recorded XLS-20 id stays as it is. -/
theorem C226_during {c : Cfg} {w w' : World} (hm : w.st.migrating = true) (h : During c w w') : w'.st.ids = w.st.ids := by
  have : w'.st.migrating = true ∧ w'.st.ids = w.st.ids := by
    induction h with
    | nil => exact ⟨hm, rfl⟩
    | step _ hne hs ih =>
      obtain ⟨a, b⟩ := ih
      exact ⟨migrating_step a hne hs, (C226_still a hs).1.trans b⟩
  exact this.2

/-- A migration begins after a token was deposited: its owner cannot withdraw it before the end. -/
example : (step cfg0 (exec cfg0 deposited [.migration true]) (.withdraw 3 100 17 77 true)).isOk = false ∧
    (exec cfg0 deposited [.migration true]).st.ids 100 17 = deposited.st.ids 100 17 ∧ (deposited.st.ids 100 17).isSome = true ∧
    (step cfg0 (exec cfg0 deposited [.migration true, .migration false]) (.withdraw 3 100 17 77 true)).isOk = true := by decide +kernel

end Verif.Xls20
