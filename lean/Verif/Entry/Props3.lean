import Verif.Entry.Props2

/-!
# XRPL messages, nonces and fees (C120, C121, C122, C123)
-/

namespace Verif.Entry

/-! ## Specification -/

/-- The message carries this data: its first memo of type "extrinsic", all memos before it being readable. -/
def Carries (m : Blob) (d : MemoData) : Prop :=
  ∃ l r, m.part.memos = l ++ { kind := some true, data := some d } :: r ∧ ∀ x ∈ l, x.kind = some false

/-- The account and nonce a transaction spends. -/
def Spends (c : Cfg) : Op → Acct → Nat → Prop
  | .signed who n _ _, a, k => a = who ∧ k = n
  | .ethereum src n _ _ _, a, k => a = src ∧ k = n
  | .xrpl m _ _, a, k => xAccount c m = .ok a ∧ ∃ d, Carries m d ∧ k = d.nonce
  | .doughnut p n _ _ _ _, a, k => c.dAcct p.dn.holder = some a ∧ k = n
  | _, _, _ => False

/-- A transaction, as opposed to the operations standing for other code. -/
def IsTx : Op → Prop
  | .signed .. => True
  | .ethereum .. => True
  | .xrpl .. => True
  | .doughnut .. => True
  | _ => False

/-- Operations that were all accepted, leading from one state to another. -/
inductive Path (c : Cfg) : St → List Op → St → Prop
  | nil {s : St} : Path c s [] s
  | cons {s s1 s2 : St} {op : Op} {l : List Op} : step c s op = .ok s1 → Path c s1 l s2 → Path c s (op :: l) s2

/-! ## C120: XRPL messages are authentic -/

theorem carries_of {l : List Memo} {d : MemoData} (h : extrinsicData l = .ok d) :
    ∃ l1 r, l = l1 ++ { kind := some true, data := some d } :: r ∧ ∀ x ∈ l1, x.kind = some false := by
  induction l with
  | nil => simp [extrinsicData] at h
  | cons m l ih =>
    obtain ⟨k, v⟩ := m
    match k with
    | none => simp [extrinsicData] at h
    | some true =>
      simp only [extrinsicData, okOr_ok] at h
      subst h
      exact ⟨[], l, rfl, by simp⟩
    | some false =>
      obtain ⟨l1, r, e, h1⟩ := ih h
      refine ⟨{ kind := some false, data := v } :: l1, r, by rw [e]; rfl, ?_⟩
      intro x hx
      rcases List.mem_cons.mp hx with rfl | hx
      · rfl
      · exact h1 x hx

theorem carries_ok {m : Blob} {d : MemoData} (h : Carries m d) : extrinsicData m.part.memos = .ok d := by
  obtain ⟨l, r, e, h1⟩ := h
  rw [e]
  clear e
  induction l with
  | nil => rfl
  | cons x l ih =>
    obtain ⟨k, v⟩ := x
    have hk : k = some false := h1 _ List.mem_cons_self
    subst hk
    exact ih fun y hy => h1 y (List.mem_cons_of_mem _ hy)

/-- An XRPL message is accepted only with a good signature by its key over the whole signed part, for this
chain, for exactly this call, not after the block it names, and with the current nonce of the key's account,
which is used up; every call that runs does so as an account that the key's account can act as. -/
theorem C120_xrpl_authentic {c : Cfg} {k : Acct} {s s1 : St} {m : Blob} {sig : Nat} {x : Call}
    (hr : Reach c k s) (h : step c s (.xrpl m sig x) = .ok s1) :
    ∃ key a d, publicKey m.part.keyHex = .ok key ∧ c.xAcct key = some a ∧ c.xVerify key m.part sig = true ∧
      Carries m d ∧ d.genesis = c.genesis ∧ d.callHash = c.callHash x ∧ s.block ≤ d.maxBlock ∧
      s.nonce a = d.nonce ∧ s1.nonce = upd s.nonce a (d.nonce + 1) ∧
      (¬ Acts s.delegate a s.sudoKey →
        Since s s1 (fun e => e.via = .xrpl ∧
          ∀ y, e.act = .call y → ∃ b, e.origin = .signed b ∧ Acts s.delegate a b)) := by
  obtain ⟨a, origin, eoa, d, h1, h2, _, _, h3, h4, _, h5⟩ := xrplTx_ok h
  obtain ⟨g1, g2, g3, _, g5, key, g6, g7⟩ := xParams_ok h2
  obtain ⟨rfl, _⟩ := xrpl_eoa hr.linked h3
  have ha : c.xAcct key = some eoa := by
    have h1 := h1
    unfold xAccount at h1
    simp only [g6, bind_ok, okOr_ok, Except.ok.injEq, exists_eq_left'] at h1
    exact h1
  refine ⟨key, eoa, d, g6, ha, g7, carries_of g1, g2, g3.symm, g5, h4, ?_, ?_⟩
  · have hf : Frame (begun s eoa d.nonce (feePayer s origin x) (c.feeOf x + d.tip)) s1 := by
      rw [h5]; exact (settle_frame fun s2 h2 => xTransact_frame h2).1
    rw [hf.nonce]; rfl
  · intro hn
    apply (user_step (c := c) (w := eoa) ⟨by simp [sender, h1, Except.toOption], hn⟩ h).2.mono
    rintro e ⟨hv, _, he⟩
    refine ⟨hv, fun y hy => ?_⟩
    rcases he with ⟨z, b, h6, h7, h8, _⟩ | ⟨t, h6⟩ | ⟨p, f, dd, h6, _⟩
    · exact ⟨b, h7, h8⟩
    · rw [h6] at hy; cases hy
    · rw [h6] at hy; cases hy

/-- An XRPL key's call runs, as the futurepass of its account where it asks for that. -/
example : Reach Demo.cfg 1 (exec Demo.cfg Demo.s0 [.fpNew 13 500, .setFunds 500 10]) ∧
    (exec Demo.cfg Demo.s0 [.fpNew 13 500, .setFunds 500 10,
      .xrpl (Demo.msg 3 0 50 0 550) 42 (.proxy 500 (.remark [7]))]).log =
      [{ via := .xrpl, origin := .signed 500, act := .call (.remark [7]), paused := false, maint := false }] ∧
    (exec Demo.cfg Demo.s0 [.fpNew 13 500, .setFunds 500 10,
      .xrpl (Demo.msg 3 0 50 0 550) 41 (.proxy 500 (.remark [7]))]).log = [] ∧
    (exec Demo.cfg Demo.s0 [.fpNew 13 500, .setFunds 500 10,
      .xrpl (Demo.msg 3 1 50 0 550) 42 (.proxy 500 (.remark [7]))]).log = [] ∧
    (exec Demo.cfg Demo.s0 [.fpNew 13 500, .setFunds 500 10,
      .xrpl (Demo.msg 3 0 0 0 550) 42 (.proxy 500 (.remark [7]))]).log = [] ∧
    (exec Demo.cfg Demo.s0 [.fpNew 13 500, .setFunds 500 10,
      .xrpl (Demo.msg 3 0 50 0 551) 42 (.proxy 500 (.remark [7]))]).log = [] := by
  refine ⟨Demo.reach_exec Demo.reach_s0, ?_, ?_, ?_, ?_, ?_⟩ <;> decide +kernel

/-! ## C121: no transaction counts twice -/

/-- An accepted transaction spends the current nonce of its account, and moves that nonce, and no other, by
one. -/
theorem spends_now {c : Cfg} {k : Acct} {s s1 : St} {op : Op} {a : Acct} {n : Nat} (hr : Reach c k s)
    (hu : Spends c op a n) (h : step c s op = .ok s1) :
    s.nonce a = n ∧ s1.nonce = upd s.nonce a (n + 1) := by
  cases op with
  | signed who n' tip x =>
    obtain ⟨rfl, rfl⟩ := hu
    exact ⟨(signedTx_ok h).2.1, (signedTx_tx h).1.nonce⟩
  | ethereum src n' t i l =>
    obtain ⟨rfl, rfl⟩ := hu
    exact ⟨(ethereumTx_ok h).1, (ethereumTx_tx h).1.nonce⟩
  | xrpl m sig x =>
    obtain ⟨hu, d', hd, rfl⟩ := hu
    obtain ⟨key, b, d, h1, h2, _, h3, _, _, _, h4, h5, _⟩ := C120_xrpl_authentic hr h
    have e := carries_ok h3
    rw [carries_ok hd] at e
    cases e
    unfold xAccount at hu
    simp only [h1, bind_ok, okOr_ok, Except.ok.injEq, exists_eq_left', h2, Option.some.injEq] at hu
    subst hu
    exact ⟨h4, h5⟩
  | doughnut p n' g tip sig x =>
    obtain ⟨hu, rfl⟩ := hu
    obtain ⟨hol, payer, _, _, _, h1, _, _, _, h2, _, h3⟩ := doughnutTx_ok h
    rw [hu] at h1
    cases h1
    refine ⟨h2, ?_⟩
    have hf : Frame (begun s a n (feePayer s payer x) (c.feeOf x + tip)) s1 := by
      rw [h3]; exact (settle_frame fun s2 h2 => dTransact_frame h2).1
    rw [hf.nonce]; rfl
  | nextBlock => cases hu
  | setFunds a x => cases hu
  | reap a => cases hu
  | fpNew a fp => cases hu
  | fpMove fp b => cases hu
  | setDelegate fp d b => cases hu

/-- Every accepted transaction spends something. -/
theorem tx_spends {c : Cfg} {k : Acct} {s s1 : St} {op : Op} (hr : Reach c k s) (ht : IsTx op)
    (h : step c s op = .ok s1) : ∃ a n, Spends c op a n := by
  cases op with
  | signed who n tip x => exact ⟨_, _, rfl, rfl⟩
  | ethereum src n t i l => exact ⟨_, _, rfl, rfl⟩
  | xrpl m sig x =>
    obtain ⟨key, b, d, h1, h2, _, h3, _⟩ := C120_xrpl_authentic hr h
    refine ⟨b, d.nonce, ?_, d, h3, rfl⟩
    unfold xAccount
    simp only [h1, bind_ok, okOr_ok, Except.ok.injEq, exists_eq_left', h2]
  | doughnut p n g tip sig x =>
    obtain ⟨hol, _, _, _, _, h1, _⟩ := doughnutTx_ok h
    exact ⟨hol, n, h1, rfl⟩
  | nextBlock => cases ht
  | setFunds a x => cases ht
  | reap a => cases ht
  | fpNew a fp => cases ht
  | fpMove fp b => cases ht
  | setDelegate fp d b => cases ht

theorem nonce_step {c : Cfg} {k : Acct} {s s1 : St} {op : Op} {a : Acct} (hr : Reach c k s)
    (h : step c s op = .ok s1) (hne : op ≠ .reap a) : s.nonce a ≤ s1.nonce a := by
  by_cases ht : IsTx op
  · obtain ⟨b, n, hu⟩ := tx_spends hr ht h
    obtain ⟨h1, h2⟩ := spends_now hr hu h
    rw [h2]
    by_cases e : a = b
    · subst e; rw [upd_same, h1]; omega
    · rw [upd_ne _ _ e]
  · cases op with
    | signed who n tip x => exact absurd trivial ht
    | ethereum src n t i l => exact absurd trivial ht
    | xrpl m sig x => exact absurd trivial ht
    | doughnut p n g tip sig x => exact absurd trivial ht
    | nextBlock => simp only [step, Except.ok.injEq] at h; subst h; exact Nat.le_refl _
    | setFunds a x => simp only [step, Except.ok.injEq] at h; subst h; exact Nat.le_refl _
    | reap b =>
      simp only [step, bind_ok, pure_ok] at h
      obtain ⟨_, _, rfl⟩ := h
      have e : a ≠ b := fun e => hne (by rw [e])
      show s.nonce a ≤ upd s.nonce b 0 a
      rw [upd_ne _ _ e]
    | fpNew a fp =>
      simp only [step, bind_ok, pure_ok] at h
      obtain ⟨_, _, _, _, rfl⟩ := h
      exact Nat.le_refl _
    | fpMove fp b =>
      simp only [step, bind_ok, pure_ok] at h
      obtain ⟨_, _, _, _, rfl⟩ := h
      exact Nat.le_refl _
    | setDelegate fp d b =>
      simp only [step, bind_ok, pure_ok] at h
      obtain ⟨_, _, rfl⟩ := h
      exact Nat.le_refl _

theorem Path.reach {c : Cfg} {k : Acct} {s s1 : St} {l : List Op} (h : Path c s l s1) (hr : Reach c k s) :
    Reach c k s1 := by
  induction h with
  | nil => exact hr
  | cons h _ ih => exact ih (.step hr h)

theorem Path.nonce {c : Cfg} {k : Acct} {s s1 : St} {l : List Op} {a : Acct} (h : Path c s l s1)
    (hr : Reach c k s) (hl : Op.reap a ∉ l) : s.nonce a ≤ s1.nonce a := by
  induction h with
  | nil => exact Nat.le_refl _
  | cons h _ ih =>
    have h1 := nonce_step hr h fun e => hl (by rw [e]; exact List.mem_cons_self)
    exact h1.trans (ih (.step hr h) fun hm => hl (List.mem_cons_of_mem _ hm))

/-- Once a transaction has been accepted for an account and a nonce, no transaction for that account and that
nonce, the same one included, whether signed, Ethereum, XRPL or doughnut, is accepted again, as long as the
account has not been removed from the system in between. (Partial because of that condition; see
`C121_refuted`.) -/
theorem C121_no_replay_partial {c : Cfg} {k : Acct} {s s1 s2 : St} {op op' : Op} {l : List Op} {a : Acct}
    {n : Nat} (hr : Reach c k s) (hu : Spends c op a n) (h : step c s op = .ok s1) (hp : Path c s1 l s2)
    (hl : Op.reap a ∉ l) (hu' : Spends c op' a n) (s3 : St) : step c s2 op' ≠ .ok s3 := by
  intro h'
  have hr1 : Reach c k s1 := .step hr h
  have h1 := (spends_now hr hu h).2
  have h2 := hp.nonce hr1 hl
  have h3 := (spends_now (hp.reach hr1) hu' h').1
  rw [h1, upd_same] at h2
  omega

/-- An account with one drop left spends it on an XRPL message; it is removed and funded again; the same
message runs again. -/
theorem C121_refuted : ∃ (c : Cfg) (k : Acct) (s s1 s2 s3 : St) (op : Op) (a : Acct) (n : Nat) (l : List Op),
    Reach c k s ∧ Spends c op a n ∧ step c s op = .ok s1 ∧ Path c s1 l s2 ∧ step c s2 op = .ok s3 ∧
    s3.log.length = 2 := by
  let op : Op := .xrpl (Demo.msg 3 0 50 0 102) 42 (.remark [1, 2])
  let s : St := exec Demo.cfg (init 1) [.setFunds 13 1]
  refine ⟨Demo.cfg, 1, s, exec Demo.cfg s [op], exec Demo.cfg s [op, .reap 13, .setFunds 13 1],
    exec Demo.cfg s [op, .reap 13, .setFunds 13 1, op], op, 13, 0, [.reap 13, .setFunds 13 1],
    Demo.reach_exec .init, ⟨?_, _, ⟨[], [], rfl, by simp⟩, rfl⟩, ?_, .cons ?_ (.cons rfl .nil), ?_, ?_⟩
  · exact ok_getD (d := 13) (by decide +kernel)
  · exact ok_getD (d := s) (by decide +kernel)
  · exact ok_getD (d := s) (by decide +kernel)
  · exact ok_getD (d := s) (by decide +kernel)
  · decide +kernel

/-- A message followed by itself, by a signed extrinsic with the same nonce, and by one with the next. -/
example : (exec Demo.cfg Demo.s0 [.xrpl (Demo.msg 3 0 50 0 102) 42 (.remark [1, 2]),
      .xrpl (Demo.msg 3 0 50 0 102) 42 (.remark [1, 2])]).log.length = 1 ∧
    (exec Demo.cfg Demo.s0 [.xrpl (Demo.msg 3 0 50 0 102) 42 (.remark [1, 2]),
      .signed 13 0 0 (.remark [1, 2])]).log.length = 1 ∧
    (exec Demo.cfg Demo.s0 [.xrpl (Demo.msg 3 0 50 0 102) 42 (.remark [1, 2]),
      .signed 13 1 0 (.remark [1, 2])]).log.length = 2 := by
  decide +kernel

/-! ## C122: fees -/

/-- The account that answers for the fee before futurepasses are looked at: the signer, the account of the
XRPL key, or the doughnut's issuer or holder as the doughnut says. -/
def Answers (c : Cfg) : Op → Acct → Prop
  | .signed who _ _ _, a => a = who
  | .xrpl m _ _, a => xAccount c m = .ok a
  | .doughnut p _ _ _ _ _, a => c.dAcct (if p.dn.holderPays then p.dn.holder else p.dn.issuer) = some a
  | _, _ => False

/-- The call and the tip of a transaction. -/
def CallTip (c : Cfg) : Op → Call → Nat → Prop
  | .signed _ _ tip x, y, t => y = x ∧ t = tip
  | .xrpl m _ x, y, t => y = x ∧ ∃ d, Carries m d ∧ t = d.tip
  | .doughnut _ _ _ tip _ x, y, t => y = x ∧ t = tip
  | _, _, _ => False

/-- An accepted signed extrinsic, XRPL message or doughnut takes exactly its fee and its tip, from one account,
which has that much, and which is the account that answers for the transaction or a futurepass that account
may act for. -/
theorem C122_fee {c : Cfg} {k : Acct} {s s1 : St} {op : Op} {w : Acct} {x : Call} {tip : Nat}
    (hr : Reach c k s) (hw : Answers c op w) (hx : CallTip c op x tip) (h : step c s op = .ok s1) :
    ∃ payer, Acts s.delegate w payer ∧ c.feeOf x + tip ≤ s.funds payer ∧
      s1.funds = upd s.funds payer (s.funds payer - (c.feeOf x + tip)) := by
  cases op with
  | signed who n tip' x' =>
    obtain ⟨rfl, rfl⟩ := hx
    cases hw
    obtain ⟨_, _, _, h1, _⟩ := signedTx_ok h
    exact ⟨_, feePayer_acts .self, h1, (signedTx_tx h).1.funds⟩
  | ethereum src n t i l => cases hw
  | xrpl m sig x' =>
    obtain ⟨rfl, d', hd, rfl⟩ := hx
    obtain ⟨a, origin, eoa, d, h1, h2, _, _, h3, h4, h6, h5⟩ := xrplTx_ok h
    rw [show xAccount c m = .ok w from hw] at h1
    cases h1
    have e := (xParams_ok h2).1
    rw [carries_ok hd] at e
    cases e
    have hf : Frame (begun s eoa d'.nonce (feePayer s origin x) (c.feeOf x + d'.tip)) s1 := by
      rw [h5]; exact (settle_frame fun s2 h2 => xTransact_frame h2).1
    exact ⟨_, feePayer_acts (xrpl_eoa hr.linked h3).2, h6, hf.funds⟩
  | doughnut p n g tip' sig x' =>
    obtain ⟨rfl, rfl⟩ := hx
    obtain ⟨hol, payer, _, _, _, _, _, _, h1, _, h2, h3⟩ := doughnutTx_ok h
    obtain ⟨_, a, ha, h4⟩ := dPayer_ok h1
    rw [show c.dAcct (if p.dn.holderPays then p.dn.holder else p.dn.issuer) = some w from hw] at ha
    cases ha
    have hf : Frame (begun s hol n (feePayer s payer x) (c.feeOf x + tip)) s1 := by
      rw [h3]; exact (settle_frame fun s2 h2 => dTransact_frame h2).1
    refine ⟨_, feePayer_acts ?_, h2, hf.funds⟩
    rcases h4 with ⟨_, h4⟩ | ⟨_, rfl⟩
    · exact .via .self (hr.linked.forth (hr.linked.back h4)).2
    · exact .self
  | nextBlock => cases hw
  | setFunds a x => cases hw
  | reap a => cases hw
  | fpNew a fp => cases hw
  | fpMove fp b => cases hw
  | setDelegate fp d b => cases hw

/-- A signed extrinsic whose call fails changes nothing but the signer's nonce and the payer's funds. -/
theorem C122_failed_call {c : Cfg} {s s1 : St} {who : Acct} {n tip : Nat} {x : Call} {e : Err}
    (h : step c s (.signed who n tip x) = .ok s1)
    (hf : dispatch c .signed x (.signed who)
      { s with nonce := upd s.nonce who (n + 1)
               funds := upd s.funds (feePayer s who x) (s.funds (feePayer s who x) - (c.feeOf x + tip)) } =
      .error e) :
    s1 = { s with nonce := upd s.nonce who (n + 1)
                  funds := upd s.funds (feePayer s who x)
                    (s.funds (feePayer s who x) - (c.feeOf x + tip)) } := by
  obtain ⟨_, _, _, _, h5⟩ := signedTx_ok h
  unfold begun at h5
  rw [hf] at h5
  exact h5

/-- The futurepass pays for a delegate's proxied call; the signer pays for a plain call. -/
example : (exec Demo.cfg Demo.s0 [.fpNew 13 500, .setFunds 500 10,
      .xrpl (Demo.msg 3 0 50 4 550) 42 (.proxy 500 (.remark [7]))]).funds 500 = 5 ∧
    (exec Demo.cfg Demo.s0 [.fpNew 13 500, .setFunds 500 10,
      .xrpl (Demo.msg 3 0 50 4 550) 42 (.proxy 500 (.remark [7]))]).funds 13 = 100 ∧
    (exec Demo.cfg Demo.s0 [.signed 13 0 4 (.remark [7])]).funds 13 = 95 ∧
    (exec Demo.cfg Demo.s0 [.signed 13 0 4 (.other (nm "Nft") (nm "mint") false)]).funds 13 = 95 ∧
    (exec Demo.cfg Demo.s0 [.signed 13 0 4 (.other (nm "Nft") (nm "mint") false)]).log = [] := by
  decide +kernel

/-! ## C123: no message can crash the node -/

/-- Not a panic. -/
def Calm {α : Type} (x : Except Err α) : Prop := x ≠ .error "Panic"

theorem Calm.ensure {p : Prop} [Decidable p] {e : Err} (h : e ≠ "Panic") : Calm (ensure p e) := by
  intro k
  exact h (ensure_err.mp k).2

theorem Calm.okOr {α : Type} {o : Option α} {e : Err} (h : e ≠ "Panic") : Calm (okOr o e) := by
  intro k
  exact h (okOr_err.mp k).2

theorem Calm.pure {α : Type} {a : α} : Calm (pure a : Except Err α) := fun h => pure_err h

theorem Calm.bind {α β : Type} {x : Except Err α} {f : α → Except Err β} (h : Calm x) (k : ∀ a, Calm (f a)) :
    Calm (x >>= f) := by
  intro e
  rcases bind_err.mp e with e | ⟨a, _, e⟩
  · exact h e
  · exact k a e

theorem Calm.ite {α : Type} {p : Prop} [Decidable p] {x y : Except Err α} (h : Calm x) (k : Calm y) :
    Calm (if p then x else y) := by
  split
  · exact h
  · exact k

theorem calm_publicKey {t : Name} (h : t ≠ []) : Calm (publicKey t) := by
  unfold publicKey
  intro e
  rcases bind_err.mp e with e | ⟨b, hb, e⟩
  · exact Calm.okOr (by decide) e
  rcases bind_err.mp e with e | ⟨_, _, e⟩
  · have hl := (ensure_err.mp e).1
    cases t with
    | nil => exact h rfl
    | cons a l =>
      cases l with
      | nil => simp [okOr_ok, hexDecode] at hb
      | cons a' l => simp at hl
  · revert e
    refine Calm.ite (Calm.bind (Calm.ensure (by decide)) fun _ => Calm.pure) (Calm.ite ?_ ?_)
    · exact Calm.bind (Calm.ensure (by decide)) fun _ => Calm.pure
    · intro e; injection e with e; exact absurd e (by decide)

theorem calm_extrinsicData {l : List Memo} : Calm (extrinsicData l) := by
  induction l with
  | nil => intro e; injection e with e; exact absurd e (by decide)
  | cons m l ih =>
    obtain ⟨k, v⟩ := m
    match k with
    | none => intro e; injection e with e; exact absurd e (by decide)
    | some true => exact Calm.okOr (by decide)
    | some false => exact ih

/-- No XRPL message with a non-empty public key text makes the node panic, whatever the key text, memos,
signature and call. (Partial: the empty text does, see `C123_refuted`.) -/
theorem C123_no_panic_partial {c : Cfg} {s : St} {m : Blob} {sig : Nat} {x : Call}
    (hk : m.part.keyHex ≠ []) : step c s (.xrpl m sig x) ≠ .error "Panic" := by
  show Calm (xrplTx c s m sig x)
  unfold xrplTx xParams xAccount charge useNonce
  refine ((calm_publicKey hk).bind fun _ => Calm.okOr (by decide)).bind fun _ => ?_
  refine (Calm.ite (Calm.okOr (by decide)) Calm.pure).bind fun _ => ?_
  refine (calm_extrinsicData.bind fun _ => (Calm.ensure (by decide)).bind fun _ =>
    (Calm.ensure (by decide)).bind fun _ => (Calm.ensure (by decide)).bind fun _ =>
    (Calm.ensure (by decide)).bind fun _ => (calm_publicKey hk).bind fun _ =>
    (Calm.ensure (by decide)).bind fun _ => Calm.pure).bind fun _ => ?_
  refine (Calm.ensure (by decide)).bind fun _ => ?_
  refine ((Calm.ensure (by decide)).bind fun _ => Calm.pure).bind fun _ => ?_
  refine (Calm.ite (Calm.okOr (by decide)) Calm.pure).bind fun _ => ?_
  refine (Calm.ensure (by decide)).bind fun _ => ?_
  exact ((Calm.ensure (by decide)).bind fun _ => Calm.pure).bind fun _ => Calm.pure

/-- A message whose public key is the empty text crashes the node that checks it, in every state and before
any signature is looked at. -/
theorem C123_refuted (c : Cfg) (s : St) (sig : Nat) (x : Call) :
    ∃ m, step c s (.xrpl m sig x) = .error "Panic" :=
  ⟨{ part := { keyHex := [], memos := [], rest := 0 }, ignored := 0 }, rfl⟩

example : (Demo.msg 3 0 50 0 102).part.keyHex ≠ [] ∧
    (step Demo.cfg Demo.s0 (.xrpl (Demo.msg 3 0 50 0 102) 42 (.remark [1, 2]))).isOk = true := by
  decide +kernel

end Verif.Entry
