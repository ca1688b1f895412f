import Verif.Futurepass.Model

/-! # Futurepass: effects of the building blocks -/

namespace Verif.Futurepass

/-- Holders, the counter, the block number and the events are as before. -/
def Core (s s' : St) : Prop :=
  s'.next = s.next ∧ s'.holder = s.holder ∧ s'.now = s.now ∧ s'.events = s.events

theorem Core.refl (s : St) : Core s s := ⟨rfl, rfl, rfl, rfl⟩

theorem Core.trans {a b c : St} (h : Core a b) (k : Core b c) : Core a c :=
  ⟨k.1.trans h.1, k.2.1.trans h.2.1, k.2.2.1.trans h.2.2.1, k.2.2.2.trans h.2.2.2⟩

/-- The deposit records agree with the lists, are reserved, and an account with a reserve is alive. -/
structure Books (c : Cfg) (s : St) : Prop where
  dep : ∀ a, s.dep a = deposit c (s.proxies a).length
  reserved : ∀ a, s.reserved a = s.dep a
  alive : ∀ a, 0 < s.reserved a → c.ed ≤ s.free a
  nodup : ∀ a, (s.proxies a).Nodup
  self : ∀ a d, d ∈ s.proxies a → d.who ≠ a

/-- Free plus reserved balances add up to the same. -/
def Keeps (s s' : St) : Prop :=
  ∀ F R, TotalIs s.free F → TotalIs s.reserved R →
    ∃ F' R', TotalIs s'.free F' ∧ TotalIs s'.reserved R' ∧ F' + R' = F + R

theorem Keeps.refl (s : St) : Keeps s s := fun F R hF hR => ⟨F, R, hF, hR, rfl⟩

theorem Keeps.trans {a b c : St} (h : Keeps a b) (k : Keeps b c) : Keeps a c := by
  intro F R hF hR
  obtain ⟨F1, R1, h1, h2, e1⟩ := h F R hF hR
  obtain ⟨F2, R2, h3, h4, e2⟩ := k F1 R1 h1 h2
  exact ⟨F2, R2, h3, h4, e2.trans e1⟩

theorem Books.congr {c : Cfg} {s s' : St} (h : Books c s) (e1 : s'.proxies = s.proxies) (e2 : s'.dep = s.dep)
    (e3 : s'.reserved = s.reserved) (e4 : s'.free = s.free) : Books c s' where
  dep := by rw [e1, e2]; exact h.dep
  reserved := by rw [e2, e3]; exact h.reserved
  alive := by rw [e3, e4]; exact h.alive
  nodup := by rw [e1]; exact h.nodup
  self := by rw [e1]; exact h.self

theorem Keeps.congr {s s' : St} (e3 : s'.reserved = s.reserved) (e4 : s'.free = s.free) : Keeps s s' := by
  intro F R hF hR
  rw [e3, e4]
  exact ⟨F, R, hF, hR, rfl⟩

/-! ## Transfers -/

theorem pay_ok {c : Cfg} {s s' : St} {a b : Acct} {x : Nat} {k : Bool} (h : pay c s a b x k = .ok s') :
    Core s s' ∧ s'.proxies = s.proxies ∧ s'.dep = s.dep ∧ s'.reserved = s.reserved ∧
      (a ≠ b → x ≤ s.free a) ∧
      (∀ y, s'.free y + (if y = a then x else 0) = s.free y + (if y = b then x else 0)) ∧
      (a ≠ b → 0 < x → 0 < s.reserved a → c.ed ≤ s'.free a) ∧ Keeps s s' := by
  unfold pay at h
  split at h
  · rename_i hx
    cases h
    refine ⟨Core.refl _, rfl, rfl, rfl, ?_, ?_, ?_, Keeps.refl _⟩
    · intro hab
      rcases hx with hx | hx
      · omega
      · exact absurd hx hab
    · intro y
      rcases hx with hx | hx
      · simp [hx]
      · subst hx
        rfl
    · intro hab h0
      rcases hx with hx | hx
      · omega
      · exact absurd hx hab
  · rename_i hx
    push Not at hx
    simp only [bind_ok, ensure_ok, pure_ok] at h
    obtain ⟨_, h1, _, h2, h⟩ := h
    subst h
    have hle : x ≤ s.free a := by split at h1 <;> omega
    have e : upd s.free a (s.free a - x) b = s.free b := upd_ne _ _ (fun e => hx.2 e.symm)
    refine ⟨⟨rfl, rfl, rfl, rfl⟩, rfl, rfl, rfl, fun _ => hle, ?_, ?_, ?_⟩
    · intro y
      dsimp only
      rw [e]
      by_cases hb : y = b
      · subst hb
        rw [upd_same, if_neg (fun e => hx.2 e.symm), if_pos rfl]
        omega
      · rw [upd_ne _ _ hb, if_neg hb]
        by_cases ha : y = a
        · subst ha
          rw [upd_same, if_pos rfl]
          omega
        · rw [upd_ne _ _ ha, if_neg ha]
    · intro _ _ hr
      rw [if_pos (Or.inr hr)] at h1
      dsimp only
      rw [upd_ne _ _ hx.2, upd_same]
      omega
    · intro F R hF hR
      refine ⟨F, R, ?_, hR, rfl⟩
      have t1 := hF.upd_sub a x hle
      have t2 := t1.upd_add b x
      have : x ≤ F := Nat.le_trans hle (hF.le a)
      have e2 : F - x + x = F := by omega
      rw [e2] at t2
      exact t2

theorem pay_books {c : Cfg} {s s' : St} {a b : Acct} {x : Nat} {k : Bool} (h : pay c s a b x k = .ok s')
    (hb : Books c s) : Books c s' := by
  obtain ⟨_, e1, e2, e3, hle, hf, hal, _⟩ := pay_ok h
  refine ⟨by rw [e1, e2]; exact hb.dep, by rw [e2, e3]; exact hb.reserved, ?_, by rw [e1]; exact hb.nodup,
    by rw [e1]; exact hb.self⟩
  intro y hy
  rw [e3] at hy
  have h0 := hb.alive y hy
  have h1 := hf y
  by_cases hab : a = b
  · subst hab
    omega
  · by_cases hya : y = a
    · subst hya
      rw [if_pos rfl, if_neg hab] at h1
      by_cases hx : 0 < x
      · exact hal hab hx hy
      · omega
    · rw [if_neg hya] at h1
      omega

/-! ## Proxy lists -/

theorem mem_insertDef {d e : Def} : ∀ {l : List Def}, e ∈ insertDef d l ↔ e = d ∨ e ∈ l
  | [] => by simp [insertDef]
  | x :: xs => by
    unfold insertDef
    split
    · simp
    · rw [List.mem_cons, mem_insertDef (l := xs), List.mem_cons]
      constructor
      · rintro (h | h | h)
        · exact .inr (.inl h)
        · exact .inl h
        · exact .inr (.inr h)
      · rintro (h | h | h)
        · exact .inr (.inl h)
        · exact .inl h
        · exact .inr (.inr h)

theorem length_insertDef {d : Def} : ∀ {l : List Def}, (insertDef d l).length = l.length + 1
  | [] => rfl
  | x :: xs => by
    unfold insertDef
    split
    · simp
    · rw [List.length_cons, length_insertDef (l := xs), List.length_cons]

theorem nodup_insertDef {d : Def} : ∀ {l : List Def}, l.Nodup → d ∉ l → (insertDef d l).Nodup
  | [], _, _ => by simp [insertDef]
  | x :: xs, h, hd => by
    unfold insertDef
    rw [List.nodup_cons] at h
    split
    · exact List.nodup_cons.mpr ⟨hd, List.nodup_cons.mpr h⟩
    · refine List.nodup_cons.mpr ⟨?_, nodup_insertDef h.2 (fun hx => hd (List.mem_cons_of_mem _ hx))⟩
      intro hx
      rcases mem_insertDef.mp hx with e | e
      · subst e
        exact hd List.mem_cons_self
      · exact h.1 e

theorem setDeposit_ok {c : Cfg} {s s' : St} {a : Acct} {l : List Def} (h : setDeposit c s a l = .ok s') :
    Core s s' ∧ s'.proxies = upd s.proxies a l ∧ s'.dep = upd s.dep a (deposit c l.length) ∧
      (∀ y, y ≠ a → s'.free y = s.free y ∧ s'.reserved y = s.reserved y) ∧
      s'.free a + s'.reserved a = s.free a + s.reserved a ∧
      s'.reserved a = s.reserved a + (deposit c l.length - s.dep a) - (s.dep a - deposit c l.length) ∧
      (s.dep a < deposit c l.length → c.ed ≤ s'.free a) ∧
      (¬ s.dep a < deposit c l.length → s.free a ≤ s'.free a) ∧ Keeps s s' := by
  unfold setDeposit at h
  dsimp only at h
  split at h
  · rename_i hlt
    simp only [bind_ok, ensure_ok, pure_ok] at h
    obtain ⟨_, h1, h⟩ := h
    subst h
    dsimp only
    refine ⟨⟨rfl, rfl, rfl, rfl⟩, rfl, rfl, ?_, ?_, ?_, ?_, ?_, ?_⟩
    · intro y hy
      rw [upd_ne _ _ hy, upd_ne _ _ hy]
      exact ⟨rfl, rfl⟩
    · rw [upd_same, upd_same]
      omega
    · rw [upd_same]
      omega
    · intro _
      rw [upd_same]
      omega
    · intro hn
      exact absurd hlt hn
    · intro F R hF hR
      have hle : deposit c l.length - s.dep a ≤ s.free a := by omega
      refine ⟨_, _, hF.upd_sub a _ hle, hR.upd_add a _, ?_⟩
      have := hF.le a
      omega
  · rename_i hlt
    simp only [pure_ok] at h
    subst h
    dsimp only
    refine ⟨⟨rfl, rfl, rfl, rfl⟩, rfl, rfl, ?_, ?_, ?_, ?_, ?_, ?_⟩
    · intro y hy
      rw [upd_ne _ _ hy, upd_ne _ _ hy]
      exact ⟨rfl, rfl⟩
    · rw [upd_same, upd_same]
      omega
    · rw [upd_same]
      omega
    · intro hn
      exact absurd hn hlt
    · intro _
      rw [upd_same]
      omega
    · intro F R hF hR
      have e : s.reserved a - (s.dep a - deposit c l.length) =
          s.reserved a - min (s.reserved a) (s.dep a - deposit c l.length) := by omega
      rw [e]
      refine ⟨_, _, hF.upd_add a _, hR.upd_sub a _ (by omega), ?_⟩
      have := hR.le a
      omega

theorem setDeposit_books {c : Cfg} {s s' : St} {a : Acct} {l : List Def} (h : setDeposit c s a l = .ok s')
    (hb : Books c s) (hn : l.Nodup) (hs : ∀ d ∈ l, d.who ≠ a) : Books c s' := by
  obtain ⟨_, e1, e2, hy, hw, hr, h5, h6, _⟩ := setDeposit_ok h
  have hra := hb.reserved a
  refine ⟨?_, ?_, ?_, ?_, ?_⟩
  · intro y
    rw [e1, e2]
    by_cases h : y = a
    · subst h
      rw [upd_same, upd_same]
    · rw [upd_ne _ _ h, upd_ne _ _ h]
      exact hb.dep y
  · intro y
    rw [e2]
    by_cases h : y = a
    · subst h
      rw [upd_same]
      omega
    · rw [upd_ne _ _ h, (hy y h).2]
      exact hb.reserved y
  · intro y hpos
    by_cases h : y = a
    · subst h
      by_cases hlt : s.dep y < deposit c l.length
      · exact h5 hlt
      · have := hb.alive y (by omega)
        have := h6 hlt
        omega
    · rw [(hy y h).2] at hpos
      rw [(hy y h).1]
      exact hb.alive y hpos
  · intro y
    rw [e1]
    by_cases h : y = a
    · subst h
      rw [upd_same]
      exact hn
    · rw [upd_ne _ _ h]
      exact hb.nodup y
  · intro y d
    rw [e1]
    by_cases h : y = a
    · subst h
      rw [upd_same]
      exact hs d
    · rw [upd_ne _ _ h]
      exact hb.self y d

theorem addProxy_ok {c : Cfg} {s s' : St} {a : Acct} {d : Def} (h : addProxy c s a d = .ok s') :
    a ≠ d.who ∧ d ∉ s.proxies a ∧ (s.proxies a).length < c.maxProxies ∧
      setDeposit c s a (insertDef d (s.proxies a)) = .ok s' := by
  simp only [addProxy, bind_ok, ensure_ok] at h
  obtain ⟨_, h1, _, h2, _, h3, h⟩ := h
  exact ⟨h1, h2, h3, h⟩

theorem addProxy_books {c : Cfg} {s s' : St} {a : Acct} {d : Def} (h : addProxy c s a d = .ok s')
    (hb : Books c s) : Books c s' := by
  obtain ⟨h1, h2, _, h⟩ := addProxy_ok h
  refine setDeposit_books h hb (nodup_insertDef (hb.nodup a) h2) ?_
  intro e he
  rcases mem_insertDef.mp he with rfl | he
  · exact fun e => h1 e.symm
  · exact hb.self a e he

theorem removeProxy_ok {c : Cfg} {s s' : St} {a : Acct} {d : Def} (h : removeProxy c s a d = .ok s') :
    d ∈ s.proxies a ∧ setDeposit c s a ((s.proxies a).erase d) = .ok s' := by
  simp only [removeProxy, bind_ok, ensure_ok] at h
  obtain ⟨_, h1, h⟩ := h
  exact ⟨h1, h⟩

theorem removeProxy_books {c : Cfg} {s s' : St} {a : Acct} {d : Def} (h : removeProxy c s a d = .ok s')
    (hb : Books c s) : Books c s' := by
  obtain ⟨_, h⟩ := removeProxy_ok h
  exact setDeposit_books h hb ((hb.nodup a).erase d) (fun e he => hb.self a e (List.mem_of_mem_erase he))

/-! ## The provider -/

/-- What a new delegate costs the funder. -/
def addCost (c : Cfg) (s : St) (fp : Acct) : Nat :=
  let extra := deposit c ((s.proxies fp).length + 1) - s.dep fp
  if s.free fp < c.ed then extra + c.ed else extra

theorem addDelegate_ok {c : Cfg} {s s' : St} {funder fp d : Acct} {ty : PType}
    (h : addDelegate c s funder fp d ty = .ok s') :
    Core s s' ∧ fp ≠ d ∧ (⟨d, ty, 0⟩ : Def) ∉ s.proxies fp ∧ (s.proxies fp).length < c.maxProxies ∧
      s'.proxies = upd s.proxies fp (insertDef ⟨d, ty, 0⟩ (s.proxies fp)) ∧
      (∀ y, s'.free y + s'.reserved y + (if y = funder then addCost c s fp else 0) =
        s.free y + s.reserved y + (if y = fp then addCost c s fp else 0)) ∧
      (Books c s → Books c s') ∧ Keeps s s' := by
  unfold addDelegate at h
  simp only [bind_ok] at h
  obtain ⟨s1, hp, h⟩ := h
  change pay c s funder fp (addCost c s fp) true = .ok s1 at hp
  obtain ⟨hc, e1, e2, e3, _, hf, _, hk⟩ := pay_ok hp
  obtain ⟨h1, h2, h3, hs⟩ := addProxy_ok h
  obtain ⟨hc2, p1, p2, p3, p4, _, _, _, hk2⟩ := setDeposit_ok hs
  rw [e1] at h2 h3 p1
  refine ⟨hc.trans hc2, h1, h2, h3, p1, ?_, fun hb => addProxy_books h (pay_books hp hb), hk.trans hk2⟩
  intro y
  have := hf y
  rw [e3] at p3 p4
  by_cases hy : y = fp
  · subst hy
    omega
  · have := p3 y hy
    omega

theorem removeDelegate_ok {c : Cfg} {s s' : St} {receiver fp d : Acct}
    (h : removeDelegate c s receiver fp d = .ok s') :
    ∃ x, findProxy s fp d none = some x ∧ (⟨d, x.ty, 0⟩ : Def) ∈ s.proxies fp ∧ Core s s' ∧
      s'.proxies = upd s.proxies fp ((s.proxies fp).erase ⟨d, x.ty, 0⟩) ∧
      (∀ y, s'.free y + s'.reserved y + (if y = fp then s.dep fp - s'.dep fp else 0) =
        s.free y + s.reserved y + (if y = receiver then s.dep fp - s'.dep fp else 0)) ∧
      s'.dep = upd s.dep fp (deposit c ((s.proxies fp).erase ⟨d, x.ty, 0⟩).length) ∧
      (Books c s → Books c s') ∧ Keeps s s' := by
  unfold removeDelegate at h
  simp only [bind_ok, okOr_ok] at h
  obtain ⟨x, hx, s1, hr, hp⟩ := h
  obtain ⟨hm, hs⟩ := removeProxy_ok hr
  obtain ⟨hc, e1, e2, p3, p4, _, _, _, hk⟩ := setDeposit_ok hs
  obtain ⟨hc2, q1, q2, q3, _, hf, _, hk2⟩ := pay_ok hp
  refine ⟨x, hx, hm, hc.trans hc2, by rw [q1, e1], ?_, by rw [q2, e2],
    fun hb => pay_books hp (removeProxy_books hr hb), hk.trans hk2⟩
  intro y
  have := hf y
  rw [q3, q2]
  by_cases hy : y = fp
  · subst hy
    omega
  · have := p3 y hy
    omega

theorem removeAccount_ok {c : Cfg} {s s' : St} {receiver fp : Acct}
    (h : removeAccount c s receiver fp = .ok s') :
    Core s s' ∧ s'.proxies = upd s.proxies fp [] ∧ s'.dep = upd s.dep fp 0 ∧
      (∀ y, s'.free y + s'.reserved y + (if y = fp then s.dep fp else 0) =
        s.free y + s.reserved y + (if y = receiver then s.dep fp else 0)) ∧
      (Books c s → Books c s') ∧ Keeps s s' := by
  unfold removeAccount at h
  dsimp only at h
  obtain ⟨hc, e1, e2, e3, _, hf, _, hk⟩ := pay_ok h
  refine ⟨hc, e1, e2, ?_, ?_, ?_⟩
  · intro y
    have hy := hf y
    rw [e3]
    dsimp only at hy ⊢
    by_cases h : y = fp
    · subst h
      rw [upd_same] at hy
      rw [upd_same]
      omega
    · rw [upd_ne _ _ h] at hy
      rw [upd_ne _ _ h]
      omega
  · intro hb
    refine pay_books h ?_
    have hra := hb.reserved fp
    refine ⟨?_, ?_, ?_, ?_, ?_⟩
    · intro y
      dsimp only
      by_cases h : y = fp
      · subst h
        rw [upd_same, upd_same]
        rfl
      · rw [upd_ne _ _ h, upd_ne _ _ h]
        exact hb.dep y
    · intro y
      dsimp only
      by_cases h : y = fp
      · subst h
        rw [upd_same, upd_same]
        omega
      · rw [upd_ne _ _ h, upd_ne _ _ h]
        exact hb.reserved y
    · intro y
      dsimp only
      by_cases h : y = fp
      · subst h
        rw [upd_same]
        omega
      · rw [upd_ne _ _ h, upd_ne _ _ h]
        exact hb.alive y
    · intro y
      dsimp only
      by_cases h : y = fp
      · subst h
        rw [upd_same]
        exact List.nodup_nil
      · rw [upd_ne _ _ h]
        exact hb.nodup y
    · intro y d
      dsimp only
      by_cases h : y = fp
      · subst h
        rw [upd_same]
        intro hd
        exact absurd hd (List.not_mem_nil)
      · rw [upd_ne _ _ h]
        exact hb.self y d
  · refine Keeps.trans ?_ hk
    intro F R hF hR
    have e : s.reserved fp - s.dep fp = s.reserved fp - min (s.reserved fp) (s.dep fp) := by omega
    refine ⟨_, R - min (s.reserved fp) (s.dep fp), hF.upd_add fp (min (s.reserved fp) (s.dep fp)), ?_, ?_⟩
    · dsimp only
      rw [e]
      exact hR.upd_sub fp _ (by omega)
    · have := hR.le fp
      omega

theorem findProxy_some {s : St} {a w : Acct} {f : Option PType} {x : Def} (h : findProxy s a w f = some x) :
    x ∈ s.proxies a ∧ x.who = w ∧ (f = none ∨ f = some x.ty) := by
  unfold findProxy at h
  have h1 := List.mem_of_find?_eq_some h
  have h2 := List.find?_some h
  simp only [Bool.and_eq_true, Bool.or_eq_true, decide_eq_true_eq] at h2
  exact ⟨h1, h2.1, h2.2⟩

theorem findProxy_none {s : St} {a w : Acct} : findProxy s a w none = none ↔ ∀ d ∈ s.proxies a, d.who ≠ w := by
  unfold findProxy
  rw [List.find?_eq_none]
  constructor
  · intro h d hd e
    exact h d hd (by simp [e])
  · intro h d hd
    simp [h d hd]

/-! ## Removing the others -/

/-- Entries of one account. -/
def cnt (w : Acct) (l : List Def) : Nat := l.countP (fun d => decide (d.who = w))

theorem cnt_erase {w : Acct} {d : Def} {l : List Def} (h : d ∈ l) :
    cnt w (l.erase d) + (if d.who = w then 1 else 0) = cnt w l := by
  unfold cnt
  have := (List.perm_cons_erase h).countP_eq (fun d => decide (d.who = w))
  rw [this, List.countP_cons]
  simp

theorem removeOthers_ok {c : Cfg} {caller fp new : Acct} : ∀ {ds : List Def} {s s' : St},
    removeOthers c caller fp new ds s = .ok s' → (∀ w, w ≠ new → cnt w (s.proxies fp) = cnt w ds) →
    Core s s' ∧ (∀ a, a ≠ fp → s'.proxies a = s.proxies a) ∧
      (∀ d, d ∈ s'.proxies fp ↔ d ∈ s.proxies fp ∧ d.who = new) ∧ (Books c s → Books c s') ∧ Keeps s s'
  | [], s, s', h, hc => by
    simp only [removeOthers] at h
    cases h
    refine ⟨Core.refl _, fun _ _ => rfl, ?_, id, Keeps.refl _⟩
    intro d
    constructor
    · intro hd
      refine ⟨hd, ?_⟩
      by_contra hn
      have h0 := hc d.who hn
      unfold cnt at h0
      rw [List.countP_nil, List.countP_eq_zero] at h0
      exact h0 d hd (by simp)
    · exact fun h => h.1
  | e :: es, s, s', h, hc => by
    simp only [removeOthers] at h
    split at h
    · rename_i hne
      simp only [bind_ok] at h
      obtain ⟨s1, h1, h2⟩ := h
      obtain ⟨x, hx, hm, hcore, hp, _, _, hb, hk⟩ := removeDelegate_ok h1
      have ih := removeOthers_ok h2 (by
        intro w hw
        have := hc w hw
        rw [hp, upd_same]
        have e1 := cnt_erase (w := w) hm
        have e2 : cnt w (e :: es) = cnt w es + (if e.who = w then 1 else 0) := by
          unfold cnt
          rw [List.countP_cons]
          simp
        dsimp only at e1
        omega)
      obtain ⟨k1, k2, k3, k4, k5⟩ := ih
      refine ⟨hcore.trans k1, ?_, ?_, fun b => k4 (hb b), hk.trans k5⟩
      · intro a ha
        rw [k2 a ha, hp, upd_ne _ _ ha]
      · intro d
        rw [k3 d, hp, upd_same]
        constructor
        · exact fun h => ⟨List.mem_of_mem_erase h.1, h.2⟩
        · intro h
          refine ⟨(List.mem_erase_of_ne ?_).mpr h.1, h.2⟩
          intro e1
          subst e1
          exact hne h.2
    · rename_i hne
      push Not at hne
      refine removeOthers_ok h ?_
      intro w hw
      rw [hc w hw]
      unfold cnt
      rw [List.countP_cons]
      simp [hne, hw.symm]

end Verif.Futurepass
