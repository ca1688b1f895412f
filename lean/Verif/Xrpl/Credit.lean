import Verif.Xrpl.Deposits

/-!
# C39, C40, C88: crediting deposits
-/

namespace Verif.Xrpl

/-- Any operation is allowed. -/
@[reducible] def Any : St → Op → Prop := fun _ _ => True

/-- C39: over any history, an XRPL transaction is credited at most once: the pairs of transaction hash and ledger index that
were credited are pairwise different, whatever relayers resubmit and however storage is pruned. (An XRPL transaction hash lies in
exactly one validated ledger; the pair is what the relayers witness.) -/
theorem C39_once {c : Cfg} {G : St → Op → Prop} {g s : St} (h : Reach c G g s) :
    (s.credited.map (fun x => (x.1, x.2.1))).Nodup := h.di.once

/-- C39: what is already known cannot be submitted again, and neither can a ledger before the submission window. -/
theorem C39_replay {c : Cfg} {s s' : St} {w : Acct} {i : Nat} {h : Hash} {d : Data} (hs : submit c s w i h d = .ok s') :
    s.details h = none ∧ s.highest - s.window ≤ i % U32 ∧ s.relayer w = true := by
  simp only [submit, bind_ok, ensure_ok] at hs
  obtain ⟨_, hr, _, _, _, hw, _, hn, _⟩ := hs
  exact ⟨hn, hw, hr⟩

/-! ## Challenges -/

theorem processOne_challenged {c : Cfg} {x : Hash → Bool} {s s' : St} {h h' : Hash} (hp : processOne c x s h' = .ok s')
    (hc : s.challenged h = true) : ∀ y ∈ s'.credited, y.1 = h → y ∈ s.credited := by
  intro y hy hyh
  unfold processOne at hp
  split at hp
  · cases hp; exact hy
  · rename_i hnc
    split at hp
    · cases hp; exact hy
    · split at hp
      · cases hp; exact hy
      · simp only [bind_ok, ensure_ok, pure_ok] at hp
        obtain ⟨_, _, rfl⟩ := hp
        rcases List.mem_append.mp hy with h1 | h1
        · exact h1
        · rw [List.mem_singleton] at h1
          subst h1
          dsimp only at hyh
          subst hyh
          exact absurd hc hnc

theorem processList_challenged {c : Cfg} {x : Hash → Bool} {h : Hash} : ∀ (hs : List Hash) {s s' : St},
    processList c x hs s = .ok s' → s.challenged h = true → ∀ y ∈ s'.credited, y.1 = h → y ∈ s.credited
  | [], _, _, hp, _ => by cases hp; exact fun y hy _ => hy
  | g :: hs, s, s', hp, hc => by
    simp only [processList, bind_ok] at hp
    obtain ⟨s1, h1, h2⟩ := hp
    intro y hy hyh
    have hc1 : s1.challenged h = true := by
      obtain ⟨_, _, _, _, rfl⟩ := processOne_frame h1
      exact hc
    exact processOne_challenged h1 hc y (processList_challenged hs h2 hc1 y hy hyh) hyh

/-- The list that is credited changes in blocks only. -/
theorem step_credited {c : Cfg} {s s' : St} {op : Op} (hs : step c s op = .ok s') :
    (∃ ks ps x, op = .block ks ps x) ∨
      (s'.credited = s.credited ∧ s'.proc = upd s.proc (s.now + c.period) (s'.proc (s.now + c.period)) ∧ s'.now = s.now ∧
        (∀ b h, h ∈ s.proc b → h ∈ s'.proc b) ∧
        ((∀ w h, op ≠ .challenge w h) → s'.challenged = s.challenged) ∧
        (∀ h, s.challenged h = true → s'.challenged h = true)) := by
  have keep : ∀ b, s.proc = upd s.proc b (s.proc b) := by
    intro b; funext b'
    rw [upd_apply]
    split
    · rename_i e; rw [e]
    · rfl
  cases op with
  | submit w i g d =>
    simp only [step, submit, bind_ok, ensure_ok, pure_ok] at hs
    obtain ⟨_, _, _, _, _, hw, _, hn, _, _, rfl⟩ := hs
    refine Or.inr ⟨rfl, ?_, rfl, ?_, fun _ => rfl, fun _ h => h⟩
    · dsimp only; rw [upd_same]
    · intro b h hm
      dsimp only
      rw [upd_apply]
      split
      · rename_i e; rw [← e]; exact List.mem_append_left _ hm
      · exact hm
  | challenge w g =>
    cases hs
    refine Or.inr ⟨rfl, keep _, rfl, fun _ _ h => h, fun h => absurd rfl (h w g), fun h hc => ?_⟩
    dsimp only [challenge]
    rw [upd_apply]
    split
    · rfl
    · exact hc
  | withdraw w a x d t =>
    obtain ⟨_, _, _, _, _, _, _, _, rfl⟩ := withdraw_frame hs
    exact Or.inr ⟨rfl, keep _, rfl, fun _ _ h => h, fun _ => rfl, fun _ h => h⟩
  | block ks ps x => exact Or.inl ⟨_, _, _, rfl⟩
  | nftTx d =>
    obtain ⟨_, _, _, _, rfl⟩ := nftTx_frame hs
    exact Or.inr ⟨rfl, keep _, rfl, fun _ _ h => h, fun _ => rfl, fun _ h => h⟩
  | signers =>
    obtain ⟨_, _, _, _, e⟩ := signers_frame s
    simp only [step, e] at hs
    cases hs
    exact Or.inr ⟨rfl, keep _, rfl, fun _ _ h => h, fun _ => rfl, fun _ h => h⟩
  | nextAlloc w d a b =>
    simp only [step, nextAlloc, bind_ok, ensure_ok, pure_ok] at hs
    obtain ⟨_, _, _, _, _, _, rfl⟩ := hs
    exact Or.inr ⟨rfl, keep _, rfl, fun _ _ h => h, fun _ => rfl, fun _ h => h⟩
  | curAlloc d t a b =>
    simp only [step, curAlloc, bind_ok, ensure_ok, pure_ok] at hs
    obtain ⟨_, _, _, _, rfl⟩ := hs
    exact Or.inr ⟨rfl, keep _, rfl, fun _ _ h => h, fun _ => rfl, fun _ h => h⟩
  | prune i =>
    simp only [step, prune, bind_ok, ensure_ok, pure_ok] at hs
    obtain ⟨_, hi, _, _, rfl⟩ := hs
    exact Or.inr ⟨rfl, keep _, rfl, fun _ _ h => h, fun _ => rfl, fun _ h => h⟩
  | setFee d x =>
    simp only [step, bind_ok, ensure_ok, pure_ok] at hs
    obtain ⟨_, _, rfl⟩ := hs
    exact Or.inr ⟨rfl, keep _, rfl, fun _ _ h => h, fun _ => rfl, fun _ h => h⟩
  | removeMap a =>
    simp only [step, bind_ok, okOr_ok, pure_ok] at hs
    obtain ⟨_, _, rfl⟩ := hs
    exact Or.inr ⟨rfl, keep _, rfl, fun _ _ h => h, fun _ => rfl, fun _ h => h⟩
  | setRelayer w b => cases hs; exact Or.inr ⟨rfl, keep _, rfl, fun _ _ h => h, fun _ => rfl, fun _ h => h⟩
  | setDelay a v => cases hs; exact Or.inr ⟨rfl, keep _, rfl, fun _ _ h => h, fun _ => rfl, fun _ h => h⟩
  | setDoor d a => cases hs; exact Or.inr ⟨rfl, keep _, rfl, fun _ _ h => h, fun _ => rfl, fun _ h => h⟩
  | setMap a cur => cases hs; exact Or.inr ⟨rfl, keep _, rfl, fun _ _ h => h, fun _ => rfl, fun _ h => h⟩
  | ledger L => cases hs; exact Or.inr ⟨rfl, keep _, rfl, fun _ _ h => h, fun _ => rfl, fun _ h => h⟩
  | setDec a n => cases hs; exact Or.inr ⟨rfl, keep _, rfl, fun _ _ h => h, fun _ => rfl, fun _ h => h⟩

/-- What a block does to the deposits: forgetting old transactions, then processing those of the new block. -/
theorem block_parts {c : Cfg} {s s' : St} {ks ps : List Nat} {x : Hash → Bool} (h : block c s ks ps x = .ok s') :
    ∃ t, processList c x (s.proc (s.now + 1)) t = .ok s' ∧ t.ledger = s.ledger ∧ t.toAsset = s.toAsset ∧
      t.challenged = s.challenged ∧ t.credited = s.credited ∧ t.proc = upd s.proc (s.now + 1) [] ∧ t.now = s.now + 1 ∧
      (DIs s → (∀ b g, g ∈ s.proc b → t.details g = s.details g)) := by
  obtain ⟨_, p, o, l, sc, q, h1, _⟩ := block_ok h
  have hf := clearLoop_frame (min (windowEnd s) ((s.pruned + c.maxPruned) % U32)) ps
    { s with payments := p, outbox := o, lost := l, sched := sc, ptr := q }
  have hd : DIs s → (∀ b g, g ∈ s.proc b →
      (clear c ps { s with payments := p, outbox := o, lost := l, sched := sc, ptr := q }).details g = s.details g) := by
    intro hi b g hg
    have : ∀ (ks : List Nat) (stop : Nat) {t : St}, DIs t → stop ≤ windowEnd t → (∀ b g, g ∈ t.proc b →
        (clearLoop stop ks t).details g = t.details g) := by
      intro ks stop
      induction ks with
      | nil => intro t _ _ b g _; rfl
      | cons k ks ih =>
        intro t ht hst b g hg
        unfold clearLoop
        split
        · rename_i hp
          split
          · exact if_neg (fun hm => ht.disj b _ g hg (List.mem_of_mem_take hm))
          · have h2 := DI.forget ht (t.settled t.pruned).length (i := t.pruned) (by omega)
            rw [List.take_length, List.drop_length] at h2
            refine (ih (t := { t with
              details := forget t.details (t.settled t.pruned)
              settled := upd t.settled t.pruned []
              pruned := t.pruned + 1 }) h2 hst b g hg).trans ?_
            exact if_neg (fun hm => ht.disj b _ g hg hm)
        · rfl
    exact this ps _ (t := { s with payments := p, outbox := o, lost := l, sched := sc, ptr := q }) hi (Nat.min_le_left _ _) b g hg
  unfold processTx at h1
  unfold clear at h1 hd
  obtain ⟨d, st, pr, e⟩ := hf
  simp only [windowEnd] at e h1 hd
  rw [e] at h1 hd
  exact ⟨_, h1, rfl, rfl, rfl, rfl, rfl, rfl, hd⟩

theorem step_challenged {c : Cfg} {s s' : St} {op : Op} {h : Hash} (hs : step c s op = .ok s') (hc : s.challenged h = true) :
    s'.challenged h = true ∧ ∀ y ∈ s'.credited, y.1 = h → y ∈ s.credited := by
  rcases step_credited hs with ⟨ks, ps, x, rfl⟩ | ⟨h1, _, _, _, _, h2⟩
  · obtain ⟨t, h1, _, _, h3, h4, _⟩ := block_parts hs
    rw [← h3] at hc
    refine ⟨?_, ?_⟩
    · obtain ⟨_, _, _, _, rfl⟩ := processList_frame _ h1
      exact hc
    · rw [← h4]
      exact processList_challenged _ h1 hc
  · exact ⟨h2 h hc, fun y hy _ => by rw [h1] at hy; exact hy⟩

/-- C40: a transaction that was challenged before it was credited is never credited, whatever happens afterwards. -/
theorem C40_challenged {c : Cfg} {G : St → Op → Prop} {s s' : St} {ops : List Op} {h : Hash} (hr : Run c G s ops s')
    (hc : s.challenged h = true) : ∀ y ∈ s'.credited, y.1 = h → y ∈ s.credited := by
  induction hr with
  | nil => exact fun y hy _ => hy
  | cons _ hs _ ih =>
    obtain ⟨h1, h2⟩ := step_challenged hs hc
    exact fun y hy hyh => h2 y (ih h1 y hy hyh) hyh

/-! ## Deposits that nobody disputes -/

/-- C40: a submitted transaction waits for its block, with its data: it is neither dropped nor changed, and challenged only by
a challenge. -/
theorem C40_pending {c : Cfg} {G : St → Op → Prop} {g s s' : St} {ops : List Op} {h : Hash} {b : Nat} (hg : Reach c G g s)
    (hr : Run c G s ops s') (hm : h ∈ s.proc b) (hb : s'.now < b) :
    h ∈ s'.proc b ∧ s'.details h = s.details h ∧
      ((∀ w, .challenge w h ∉ ops) → s'.challenged h = s.challenged h) := by
  have hnow : ∀ {s s' : St} {ops : List Op}, Run c G s ops s' → s.now ≤ s'.now := by
    intro s s' ops hr
    induction hr with
    | nil => exact Nat.le_refl _
    | cons _ hs _ ih =>
      refine Nat.le_trans ?_ ih
      rcases step_credited hs with ⟨ks, ps, x, rfl⟩ | ⟨_, _, h1, _⟩
      · obtain ⟨t, h1, _, _, _, _, _, h2, _⟩ := block_parts hs
        obtain ⟨_, _, _, _, rfl⟩ := processList_frame _ h1
        dsimp only
        omega
      · omega
  induction hr with
  | nil => exact ⟨hm, rfl, fun _ => rfl⟩
  | @cons s s1 s2 op ops hG hs hrest ih =>
    have hdi := hg.di
    have hn := hnow hrest
    have h1 : h ∈ s1.proc b ∧ s1.details h = s.details h ∧ ((∀ w, op ≠ .challenge w h) → s1.challenged h = s.challenged h) := by
      rcases step_credited hs with ⟨ks, ps, x, rfl⟩ | ⟨_, _, h1, h2, h3, _⟩
      · obtain ⟨t, k1, _, _, k3, _, k5, k6, k7⟩ := block_parts hs
        have k8 := k7 hdi b h hm
        obtain ⟨L, st, hi, cr, rfl⟩ := processList_frame _ k1
        dsimp only at hn ⊢
        refine ⟨?_, k8, fun _ => by rw [k3]⟩
        rw [k5, upd_ne _ _ (by omega)]
        exact hm
      · refine ⟨h2 b h hm, ?_, ?_⟩
        · cases op with
          | submit w i g d =>
            simp only [step, submit, bind_ok, ensure_ok, pure_ok] at hs
            obtain ⟨_, _, _, _, _, hw, _, hnone, _, _, rfl⟩ := hs
            refine upd_ne _ _ ?_
            rintro rfl
            exact hdi.det b _ hm hnone
          | prune i =>
            simp only [step, prune, bind_ok, ensure_ok, pure_ok] at hs
            obtain ⟨_, hi, _, _, rfl⟩ := hs
            exact if_neg (fun hx => hdi.disj b i h hm hx)
          | challenge w g => cases hs; rfl
          | withdraw w a x d t => obtain ⟨_, _, _, _, _, _, _, _, rfl⟩ := withdraw_frame hs; rfl
          | block ks ps x =>
            obtain ⟨t, k1, _, _, _, _, _, k6, _⟩ := block_parts hs
            obtain ⟨L, st, hi, cr, rfl⟩ := processList_frame _ k1
            dsimp only at h1
            omega
          | nftTx d => obtain ⟨_, _, _, _, rfl⟩ := nftTx_frame hs; rfl
          | signers =>
            obtain ⟨_, _, _, _, e⟩ := signers_frame s
            simp only [step, e] at hs
            cases hs
            rfl
          | nextAlloc w d a b =>
            simp only [step, nextAlloc, bind_ok, ensure_ok, pure_ok] at hs
            obtain ⟨_, _, _, _, _, _, rfl⟩ := hs
            rfl
          | curAlloc d t a b =>
            simp only [step, curAlloc, bind_ok, ensure_ok, pure_ok] at hs
            obtain ⟨_, _, _, _, rfl⟩ := hs
            rfl
          | setFee d x =>
            simp only [step, bind_ok, ensure_ok, pure_ok] at hs
            obtain ⟨_, _, rfl⟩ := hs
            rfl
          | removeMap a =>
            simp only [step, bind_ok, okOr_ok, pure_ok] at hs
            obtain ⟨_, _, rfl⟩ := hs
            rfl
          | setRelayer w b => cases hs; rfl
          | setDelay a v => cases hs; rfl
          | setDoor d a => cases hs; rfl
          | setMap a cur => cases hs; rfl
          | ledger L => cases hs; rfl
          | setDec a n => cases hs; rfl
        · intro hne
          by_cases hch : ∃ w g, op = .challenge w g
          · obtain ⟨w, g', rfl⟩ := hch
            cases hs
            refine upd_ne _ _ ?_
            rintro rfl
            exact hne w rfl
          · rw [h3 (fun w g' e => hch ⟨w, g', e⟩)]
    obtain ⟨a1, a2, a3⟩ := h1
    obtain ⟨b1, b2, b3⟩ := ih (.step hg hG hs) a1 hb
    refine ⟨b1, b2.trans a2, fun hno => ?_⟩
    rw [b3 (fun w hw => hno w (List.mem_cons_of_mem _ hw)), a3 (fun w e => hno w (by rw [e]; exact List.mem_cons_self))]

/-- C40: an accepted submission is put on the list of the block a challenge period later, with the data submitted. -/
theorem C40_submit {c : Cfg} {s s' : St} {w : Acct} {i : Nat} {h : Hash} {d : Data} (hs : submit c s w i h d = .ok s') :
    h ∈ s'.proc (s.now + c.period) ∧ s'.details h = some (i, d) := by
  simp only [submit, bind_ok, ensure_ok, pure_ok] at hs
  obtain ⟨_, _, _, _, _, _, _, _, _, _, rfl⟩ := hs
  dsimp only
  rw [upd_same, upd_same]
  exact ⟨List.mem_append_right _ List.mem_cons_self, rfl⟩

/-! ## What a deposit pays -/

/-- Specification: the asset, the beneficiary and the amount of a deposit of fungible tokens. -/
def pays (c : Cfg) (m : Cur → Option AssetId) : Data → Option (AssetId × Acct × Nat)
  | .payment amt ben => some (c.xrp, ben, amt)
  | .currency amt ben cur => (m cur).map (fun a => (a, ben, amt))
  | .xls20 _ _ => none

/-- Specification: how much of `a` a list of deposits pays to `y`. -/
def paidTo (c : Cfg) (m : Cur → Option AssetId) (a : AssetId) (y : Acct) : List (Hash × Nat × Data) → Nat
  | [] => 0
  | x :: xs => (match pays c m x.2.2 with
    | some (a', b, n) => if a = a' ∧ y = b then n else 0
    | none => 0) + paidTo c m a y xs

/-- Specification: how much of `a` a list of deposits pays in total. -/
def paid (c : Cfg) (m : Cur → Option AssetId) (a : AssetId) : List (Hash × Nat × Data) → Nat
  | [] => 0
  | x :: xs => (match pays c m x.2.2 with
    | some (a', _, n) => if a = a' then n else 0
    | none => 0) + paid c m a xs

theorem paidTo_append (c : Cfg) (m : Cur → Option AssetId) (a : AssetId) (y : Acct) : ∀ xs ys : List (Hash × Nat × Data),
    paidTo c m a y (xs ++ ys) = paidTo c m a y xs + paidTo c m a y ys
  | [], ys => by simp [paidTo]
  | x :: xs, ys => by
    simp only [List.cons_append, paidTo, paidTo_append c m a y xs ys]
    omega

theorem paid_append (c : Cfg) (m : Cur → Option AssetId) (a : AssetId) : ∀ xs ys : List (Hash × Nat × Data),
    paid c m a (xs ++ ys) = paid c m a xs + paid c m a ys
  | [], ys => by simp [paid]
  | x :: xs, ys => by
    simp only [List.cons_append, paid, paid_append c m a xs ys]
    omega

/-- How the ledger changes while deposits are credited. -/
structure Paid (c : Cfg) (m : Cur → Option AssetId) (L L' : Ledger) (xs : List (Hash × Nat × Data)) : Prop where
  iss : ∀ a, a ≠ c.native → L'.iss a = L.iss a + paid c m a xs
  bal : ∀ a, a ≠ c.native → ∀ y, L'.bal a y = L.bal a y + paidTo c m a y xs
  niss : L'.iss c.native = L.iss c.native
  nbal : ∀ y, y ≠ c.pot → L'.bal c.native y = L.bal c.native y + paidTo c m c.native y xs
  npot : L'.bal c.native c.pot + paid c m c.native xs = L.bal c.native c.pot + paidTo c m c.native c.pot xs

theorem Paid.nil (c : Cfg) (m : Cur → Option AssetId) (L : Ledger) : Paid c m L L [] :=
  ⟨fun _ _ => rfl, fun _ _ _ => rfl, rfl, fun _ _ => rfl, rfl⟩

theorem Paid.trans {c : Cfg} {m : Cur → Option AssetId} {L L1 L2 : Ledger} {xs ys : List (Hash × Nat × Data)}
    (h1 : Paid c m L L1 xs) (h2 : Paid c m L1 L2 ys) : Paid c m L L2 (xs ++ ys) where
  iss := fun a ha => by rw [h2.iss a ha, h1.iss a ha, paid_append]; omega
  bal := fun a ha y => by rw [h2.bal a ha y, h1.bal a ha y, paidTo_append]; omega
  niss := by rw [h2.niss, h1.niss]
  nbal := fun y hy => by rw [h2.nbal y hy, h1.nbal y hy, paidTo_append]; omega
  npot := by
    have a := h1.npot
    have b := h2.npot
    rw [paid_append, paidTo_append]
    omega

theorem creditAsset_paid {c : Cfg} {m : Cur → Option AssetId} {L L' : Ledger} {a : AssetId} {ben : Acct} {n : Nat} {h : Hash}
    {i : Nat} {d : Data} (hd : pays c m d = some (a, ben, n)) (hc : creditAsset c L a ben n = .ok L') :
    Paid c m L L' [(h, i, d)] := by
  unfold creditAsset at hc
  split at hc
  · rename_i ha
    subst ha
    obtain ⟨h1, h2, h3, h4⟩ := Ledger.transfer_ok hc
    refine ⟨?_, ?_, ?_, ?_, ?_⟩
    · intro a ha
      rw [h2]
      simp only [paid, hd, if_neg ha]
      rfl
    · intro a ha y
      rw [h3 a ha]
      simp only [paidTo, hd]
      rw [if_neg (fun e => ha e.1)]
      rfl
    · rw [h2]
    · intro y hy
      have := h4 y
      simp only [paidTo, hd, true_and]
      simp only [if_neg hy] at this
      exact this
    · have := h4 c.pot
      simp only [paid, paidTo, hd, true_and, if_true] at this ⊢
      exact this
  · rename_i hne
    obtain ⟨h1, h2, h3, h4, h5⟩ := Ledger.mint_ok hc
    have hne' : c.native ≠ a := fun e => hne e.symm
    refine ⟨?_, ?_, ?_, ?_, ?_⟩
    · intro b hb
      simp only [paid, hd]
      by_cases e : b = a
      · subst e; simp only [if_true]; exact h2
      · simp only [if_neg e]; exact h3 b e
    · intro b hb y
      simp only [paidTo, hd]
      by_cases e : b = a
      · subst e; simp only [true_and]; exact h5 y
      · rw [h4 b e, if_neg (fun e' => e e'.1)]; rfl
    · exact h3 _ hne'
    · intro y _
      rw [h4 _ hne']
      simp only [paidTo, hd]
      rw [if_neg (fun e => hne' e.1)]
      rfl
    · rw [h4 _ hne']
      simp only [paidTo, paid, hd]
      simp only [hne', false_and, if_false]

theorem credit_paid {c : Cfg} {s : St} {L' : Ledger} {x : Bool} {h : Hash} {i : Nat} {d : Data}
    (hc : credit c s x d = .ok L') : Paid c s.toAsset s.ledger L' [(h, i, d)] := by
  cases d with
  | payment n b => exact creditAsset_paid rfl hc
  | currency n b cur =>
    simp only [credit, bind_ok, okOr_ok] at hc
    obtain ⟨a, h1, h2⟩ := hc
    exact creditAsset_paid (by simp only [pays, h1]; rfl) h2
  | xls20 t b =>
    simp only [credit] at hc
    split at hc
    · cases hc
      exact ⟨fun _ _ => rfl, fun _ _ _ => rfl, rfl, fun _ _ => rfl, rfl⟩
    · cases hc

theorem processOne_paid {c : Cfg} {x : Hash → Bool} {s s' : St} {h : Hash} (hp : processOne c x s h = .ok s') :
    ∃ xs, s'.credited = s.credited ++ xs ∧ Paid c s.toAsset s.ledger s'.ledger xs ∧ ∀ y ∈ xs, y.1 = h := by
  unfold processOne at hp
  split at hp
  · cases hp; exact ⟨[], by simp, Paid.nil _ _ _, by simp⟩
  · split at hp
    · cases hp; exact ⟨[], by simp, Paid.nil _ _ _, by simp⟩
    · split at hp
      · cases hp; exact ⟨[], by simp, Paid.nil _ _ _, by simp⟩
      · rename_i hc
        simp only [bind_ok, ensure_ok, pure_ok] at hp
        obtain ⟨_, _, rfl⟩ := hp
        exact ⟨_, rfl, credit_paid hc, by simp⟩

theorem processList_paid {c : Cfg} {x : Hash → Bool} : ∀ (hs : List Hash) {s s' : St}, processList c x hs s = .ok s' →
    ∃ xs, s'.credited = s.credited ++ xs ∧ Paid c s.toAsset s.ledger s'.ledger xs ∧ ∀ y ∈ xs, y.1 ∈ hs
  | [], _, _, hp => by cases hp; exact ⟨[], by simp, Paid.nil _ _ _, by simp⟩
  | h :: hs, s, s', hp => by
    simp only [processList, bind_ok] at hp
    obtain ⟨s1, h1, h2⟩ := hp
    obtain ⟨xs, a1, a2, a3⟩ := processOne_paid h1
    obtain ⟨ys, b1, b2, b3⟩ := processList_paid hs h2
    have : s1.toAsset = s.toAsset := by
      obtain ⟨_, _, _, _, rfl⟩ := processOne_frame h1
      rfl
    rw [this] at b2
    refine ⟨xs ++ ys, by rw [b1, a1, List.append_assoc], a2.trans b2, ?_⟩
    intro y hy
    rcases List.mem_append.mp hy with h | h
    · rw [a3 y h]; exact List.mem_cons_self
    · exact List.mem_cons_of_mem _ (b3 y h)

/-- C88: what a block does to balances. The deposits it credits (`xs`) were due in this block; every beneficiary receives exactly
the amounts of their deposits, newly issued, except for the native asset, which comes out of the bridge's own account. -/
theorem C88_block {c : Cfg} {s s' : St} {ks ps : List Nat} {x : Hash → Bool} (h : block c s ks ps x = .ok s') :
    ∃ xs, s'.credited = s.credited ++ xs ∧ (∀ y ∈ xs, y.1 ∈ s.proc (s.now + 1)) ∧ Paid c s.toAsset s.ledger s'.ledger xs := by
  obtain ⟨t, h1, h2, h3, _, h5, _⟩ := block_parts h
  obtain ⟨xs, a1, a2, a3⟩ := processList_paid _ h1
  rw [h5] at a1
  rw [h2, h3] at a2
  exact ⟨xs, a1, a3, a2⟩

theorem paidTo_le (c : Cfg) (m : Cur → Option AssetId) (a : AssetId) (y : Acct) : ∀ xs : List (Hash × Nat × Data),
    paidTo c m a y xs ≤ paid c m a xs
  | [] => Nat.le_refl _
  | x :: xs => by
    have := paidTo_le c m a y xs
    simp only [paidTo, paid]
    cases h : pays c m x.2.2 with
    | none => simp only; omega
    | some p =>
      simp only
      by_cases e : a = p.1
      · by_cases e' : y = p.2.1
        · simp only [e, e', true_and, if_true]; subst e; subst e'; omega
        · simp only [e', and_false, if_false]; omega
      · simp only [e, false_and, if_false]; omega

theorem processList_due {c : Cfg} {x : Hash → Bool} {h : Hash} {i : Nat} {d : Data} {a : AssetId} {ben : Acct} {n : Nat} :
    ∀ (hs : List Hash) {s s' : St}, processList c x hs s = .ok s' → h ∈ hs → s.details h = some (i, d) →
    s.challenged h = false → pays c s.toAsset d = some (a, ben, n) → (a ≠ c.native → s'.ledger.iss a + n < U128) →
    (a = c.native → n ≤ s'.ledger.bal a c.pot) → (h, i % U32, d) ∈ s'.credited
  | [], _, _, _, hm, _, _, _, _, _ => by cases hm
  | g :: hs, s, s', hp, hm, hd, hc, hpay, hiss, hpot => by
    have hall := hp
    simp only [processList, bind_ok] at hp
    obtain ⟨s1, h1, h2⟩ := hp
    by_cases hg : g = h
    · subst hg
      obtain ⟨ys, b1, b2, _⟩ := processList_paid _ hall
      obtain ⟨zs, c1, _, _⟩ := processList_paid hs h2
      rw [c1]
      refine List.mem_append_left _ ?_
      have hok : ∃ L, credit c s (x g) d = .ok L := by
        have hca : ∃ L, creditAsset c s.ledger a ben n = .ok L := by
          unfold creditAsset
          split
          · rename_i e
            subst e
            have p1 := hpot rfl
            have p2 := b2.npot
            have p3 := paidTo_le c s.toAsset c.native c.pot ys
            unfold Ledger.transfer
            rw [if_pos (by omega)]
            exact ⟨_, rfl⟩
          · rename_i e
            have p1 := hiss e
            have p2 := b2.iss a e
            unfold Ledger.mint
            rw [if_pos (by omega)]
            exact ⟨_, rfl⟩
        cases d with
        | payment m b => simp only [pays, Option.some.injEq, Prod.mk.injEq] at hpay; obtain ⟨rfl, rfl, rfl⟩ := hpay; exact hca
        | currency m b cur =>
          simp only [pays, Option.map_eq_some_iff, Prod.mk.injEq] at hpay
          obtain ⟨a', ha', rfl, rfl, rfl⟩ := hpay
          obtain ⟨L, hL⟩ := hca
          exact ⟨L, by simp only [credit, ha']; exact hL⟩
        | xls20 t b => cases hpay
      obtain ⟨L, hL⟩ := hok
      unfold processOne at h1
      rw [if_neg (by rw [hc]; decide), hd] at h1
      simp only [hL, bind_ok, ensure_ok, pure_ok] at h1
      obtain ⟨_, _, rfl⟩ := h1
      exact List.mem_append_right _ List.mem_cons_self
    · have hm' : h ∈ hs := by
        rcases List.mem_cons.mp hm with e | e
        · exact absurd e.symm hg
        · exact e
      obtain ⟨_, _, _, _, rfl⟩ := processOne_frame h1
      exact processList_due hs h2 hm' hd hc hpay hiss hpot

/-- C40, second half, partial: a transaction that is due in the next block and that nobody has challenged is credited there, with
the data submitted, if the deposit can be carried out: the supply does not overflow, or for the native asset the bridge still
holds enough. Missing: `C40_refuted`, anybody can challenge and a challenge is never resolved. -/
theorem C40_unchallenged_partial {c : Cfg} {G : St → Op → Prop} {g s s' : St} {ks ps : List Nat} {x : Hash → Bool} {h : Hash}
    {i : Nat} {d : Data} {a : AssetId} {ben : Acct} {n : Nat} (hg : Reach c G g s) (hb : block c s ks ps x = .ok s')
    (hm : h ∈ s.proc (s.now + 1)) (hd : s.details h = some (i, d)) (hc : s.challenged h = false)
    (hpay : pays c s.toAsset d = some (a, ben, n)) (hiss : a ≠ c.native → s'.ledger.iss a + n < U128)
    (hpot : a = c.native → n ≤ s'.ledger.bal a c.pot) : (h, i % U32, d) ∈ s'.credited := by
  obtain ⟨t, h1, _, h3, h4, _, _, _, h7⟩ := block_parts hb
  refine processList_due (ben := ben) _ h1 hm ?_ ?_ ?_ hiss hpot
  · rw [h7 hg.di _ h hm, hd]
  · rw [h4, hc]
  · rw [h3, hpay]

end Verif.Xrpl
