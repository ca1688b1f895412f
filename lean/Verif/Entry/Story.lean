import Verif.Entry.Props4

/-!
# C256: the events of the maintenance pallet and of the doughnut pallet

Abbreviations as in `Model`. Every call of these two pallets that changes a table ends with an event: mm:154 `MaintenanceModeActivated`,
mm:173 `AccountBlocked`, mm:194 `EVMTargetBlocked`, mm:230 `CallBlocked`, mm:259 `PalletBlocked`; dn:534 `DoughnutRevokeStateUpdated`,
dn:554 `HolderRevokeStateUpdated`, dn:573 `WhitelistedHoldersUpdated`. Events of calls that are undone are undone with them.
-/

namespace Verif.Entry

/-- The events (mm:114-128, dn:397-401). -/
inductive Said where
  | mode (on : Bool)
  | account (a : Acct) (blocked : Bool)
  | evm (a : Acct) (blocked : Bool)
  | call (pallet fn : Name) (blocked : Bool)
  | pallet (pallet : Name) (blocked : Bool)
  | white (a : Acct) (on : Bool)
  | revoked (hash : Nat) (on : Bool)
  | holder (issuer holder : Acct) (on : Bool)
deriving DecidableEq

/-- The event at the end of a call that ran; names are told as they are stored, cut and in lower case. -/
def said (c : Cfg) (e : Ran) : Option Said :=
  match e.act, e.origin with
  | .call (.maint (.enable on)), _ => some (.mode on)
  | .call (.maint (.account a b)), _ => some (.account a b)
  | .call (.maint (.evm a b)), _ => some (.evm a b)
  | .call (.maint (.call p f b)), _ => some (.call (bounded (lower p)) (bounded (lower f)) b)
  | .call (.maint (.pallet p b)), _ => some (.pallet (bounded (lower p)) b)
  | .call (.whitelist a b), _ => some (.white a b)
  | .call (.revokeDoughnut p b), _ => some (.revoked (c.keccak p) b)
  | .call (.revokeHolder h b), .signed w => some (.holder w h b)
  | _, _ => none

/-- The events of a history, oldest first. -/
def story (c : Cfg) (s : St) : List Said := s.log.reverse.filterMap (said c)

/-! ## Specification: a reader of the events -/

/-- What the reader keeps. -/
@[ext] structure Page where
  mode : Bool
  account : Acct → Bool
  evm : Acct → Bool
  call : Name × Name → Bool
  pallet : Name → Bool
  white : Acct → Bool
  revoked : Nat → Bool
  holder : Acct → Acct → Bool

/-- Nothing is blocked and nobody is trusted. -/
def Page.empty : Page where
  mode := false
  account := fun _ => false
  evm := fun _ => false
  call := fun _ => false
  pallet := fun _ => false
  white := fun _ => false
  revoked := fun _ => false
  holder := fun _ _ => false

/-- The reader notes what an event says. -/
def Page.read (p : Page) : Said → Page
  | .mode on => { p with mode := on }
  | .account a b => { p with account := fun x => if x = a then b else p.account x }
  | .evm a b => { p with evm := fun x => if x = a then b else p.evm x }
  | .call q f b => { p with call := fun x => if x = (q, f) then b else p.call x }
  | .pallet q b => { p with pallet := fun x => if x = q then b else p.pallet x }
  | .white a b => { p with white := fun x => if x = a then b else p.white x }
  | .revoked h b => { p with revoked := fun x => if x = h then b else p.revoked x }
  | .holder w h b => { p with holder := fun x y => if x = w ∧ y = h then b else p.holder x y }

/-- Reading all events in order. -/
def page (es : List Said) : Page := es.foldl Page.read .empty

/-- The tables of the chain. -/
def picture (s : St) : Page where
  mode := s.active
  account := s.blockedAcct
  evm := s.blockedEvm
  call := s.blockedCall
  pallet := s.blockedPallet
  white := s.white
  revoked := s.revoked
  holder := s.revokedHolder

/-- Would the reader expect an Ethereum transaction to be let in. -/
def Page.evmIn (p : Page) (src target : Acct) : Bool := !p.mode && !p.account src && !p.evm target

/-- Would the reader expect a call to be stopped by the lists. -/
def Page.stops (p : Page) (pallet fn : Name) : Bool :=
  decide (lower pallet ∉ protectedNames) && (p.call (bounded (lower pallet), bounded (lower fn)) || p.pallet (bounded (lower pallet)))

/-! ## Proofs -/

/-- The reader knows the tables. -/
def Knows (c : Cfg) (s : St) : Prop := page (story c s) = picture s

theorem Knows.same {c : Cfg} {s s1 : St} (h : Knows c s) (h1 : s1.log = s.log) (h2 : picture s1 = picture s) : Knows c s1 := by
  unfold Knows story at *
  rw [h1, h2]
  exact h

theorem Knows.ran {c : Cfg} {s s1 : St} {v : Via} {o : Origin} {a : Act} {b : Bool} (h : Knows c s) (h1 : s1.log = s.log)
    (h2 : ∀ m, picture s1 = match said c ⟨v, o, a, b, m⟩ with
      | some e => (picture s).read e
      | none => picture s) : Knows c (ran s1 v o a b) := by
  have h2 := h2 s1.active
  unfold Knows story at *
  show page (List.filterMap (said c) (_ :: s1.log).reverse) = picture s1
  rw [h1, List.reverse_cons, List.filterMap_append, h2]
  cases he : said c ⟨v, o, a, b, s1.active⟩ with
  | none =>
    simp only [List.filterMap_cons, he, List.filterMap_nil, List.append_nil]
    exact h
  | some e =>
    simp only [List.filterMap_cons, he, List.filterMap_nil]
    unfold page at *
    rw [List.foldl_append, h]
    rfl

theorem knows_subs {c : Cfg} {v : Via} : ∀ {l : List Sub} {s s1 : St}, runSubs v l s = .ok s1 → Knows c s → Knows c s1
  | [], s, s1, h, hs => by
    simp only [runSubs, Except.ok.injEq] at h
    exact h ▸ hs
  | x :: l, s, s1, h, hs => by
    unfold runSubs at h
    split at h
    · exact knows_subs h (hs.ran rfl fun _ => rfl)
    · simp only [bind_ok] at h
      obtain ⟨_, _, h⟩ := h
      exact knows_subs h (Knows.ran (s := Entry.ran s v _ _ _) (hs.ran rfl fun _ => rfl) rfl fun _ => rfl)

theorem knows_evm {c : Cfg} {v : Via} {s s1 : St} {src t i : Acct} {subs : List Sub} (h : evmRun c s v src t i subs = .ok s1)
    (hs : Knows c s) : Knows c s1 := knows_subs (evmRun_ok h).2 (hs.ran rfl fun _ => rfl)

theorem upd_if {α β : Type} [DecidableEq α] (f : α → β) (a : α) (v : β) : upd f a v = fun x => if x = a then v else f x := by
  funext x
  exact upd_apply f a x v

theorem knows_maint {c : Cfg} {v : Via} {o : Origin} {s s1 : St} {m : MOp} {b : Bool} (hs : Knows c s) (h : maintOp c s m = .ok s1) :
    Knows c (ran s1 v o (.call (.maint m)) b) := by
  cases m with
  | enable on =>
    simp only [maintOp, Except.ok.injEq] at h
    subst h
    exact hs.ran rfl fun _ => rfl
  | account a x =>
    simp only [maintOp, Except.ok.injEq] at h
    subst h
    refine hs.ran rfl fun _ => ?_
    simp only [said, picture, Page.read, upd_if]
  | evm a x =>
    simp only [maintOp, Except.ok.injEq] at h
    subst h
    refine hs.ran rfl fun _ => ?_
    simp only [said, picture, Page.read, upd_if]
  | call p f x =>
    simp only [maintOp, bind_ok, ensure_ok, pure_ok] at h
    obtain ⟨_, h0, _, h1, _, h2, _, h3, _, h4, rfl⟩ := h
    refine hs.ran rfl fun _ => ?_
    simp only [said, picture, Page.read, upd_if]
  | pallet p x =>
    simp only [maintOp, bind_ok, ensure_ok, pure_ok] at h
    obtain ⟨_, h0, _, h1, _, h2, rfl⟩ := h
    refine hs.ran rfl fun _ => ?_
    simp only [said, picture, Page.read, upd_if]

theorem knows_run {c : Cfg} {v : Via} {x : Call} : ∀ {o : Origin} {s s1 : St}, run c v x o s = .ok s1 → Knows c s → Knows c s1 := by
  have lf : ∀ {o : Origin} {s s1 : St} {y : Call} {ok : Bool}, (∀ b m, said c ⟨v, o, .call y, b, m⟩ = none) →
      leaf s v o y ok = .ok s1 → Knows c s → Knows c s1 := by
    intro o s s1 y ok hn h hs
    rw [leaf_ok h]
    exact hs.ran rfl fun m => by rw [hn]
  have gate : ∀ {o : Origin} {s s1 : St} {y : Call},
      (∀ {o : Origin} {s s1 : St}, run c v y o s = .ok s1 → Knows c s → Knows c s1) →
      (if admitted s o y = true then run c v y o s else .error "CallFiltered") = .ok s1 → Knows c s → Knows c s1 := by
    intro o s s1 y hy h hs
    by_cases ha : admitted s o y = true
    · rw [if_pos ha] at h; exact hy h hs
    · rw [if_neg ha] at h; exact absurd h (by simp)
  have cat : ∀ {s s1 : St} {r : Except Err St}, (∀ s2, r = .ok s2 → Knows c s → Knows c s2) →
      (match r with | .ok s2 => (.ok s2 : Except Err St) | .error _ => .ok s) = .ok s1 → Knows c s → Knows c s1 := by
    intro s s1 r hr h hs
    cases r with
    | ok s2 => simp only [Except.ok.injEq] at h; subst h; exact hr _ rfl hs
    | error e => simp only [Except.ok.injEq] at h; subst h; exact hs
  induction x with
  | other p f ok => intro o s s1 h; exact lf (fun _ _ => rfl) h
  | bond k ok => intro o s s1 h; exact lf (fun _ _ => rfl) h
  | transfer k d x ok =>
    intro o s s1 h
    simp only [run, bind_ok] at h
    obtain ⟨_, _, h⟩ := h
    exact lf (fun _ _ => rfl) h
  | assetTransfer i d x k ok =>
    intro o s s1 h
    simp only [run, bind_ok] at h
    obtain ⟨_, _, h⟩ := h
    exact lf (fun _ _ => rfl) h
  | fpCreate a ok =>
    intro o s s1 h
    simp only [run, bind_ok] at h
    obtain ⟨_, _, h⟩ := h
    exact lf (fun _ _ => rfl) h
  | remark b => intro o s s1 h; exact lf (fun _ _ => rfl) h
  | maint m =>
    intro o s s1 h hs
    simp only [run, bind_ok, pure_ok] at h
    obtain ⟨_, _, s2, h2, rfl⟩ := h
    exact knows_maint hs h2
  | revokeDoughnut p r =>
    intro o s s1 h hs
    simp only [run, revokeDoughnut, bind_ok, pure_ok] at h
    obtain ⟨_, _, s2, ⟨_, _, _, _, h2⟩, rfl⟩ := h
    subst h2
    refine hs.ran rfl fun _ => ?_
    simp only [said, picture, Page.read, upd_if]
  | revokeHolder a r =>
    intro o s s1 h hs
    simp only [run, bind_ok, pure_ok] at h
    obtain ⟨w, hw, rfl⟩ := h
    rw [signer_ok] at hw
    subst hw
    refine hs.ran rfl fun _ => ?_
    simp only [said, picture, Page.read, upd_if]
    congr 1
    funext x y
    by_cases e : x = w
    · subst e
      by_cases e2 : y = a <;> simp [e2]
    · simp [e]
  | whitelist a r =>
    intro o s s1 h hs
    simp only [run, bind_ok, pure_ok] at h
    obtain ⟨_, _, rfl⟩ := h
    refine hs.ran rfl fun _ => ?_
    simp only [said, picture, Page.read, upd_if]
  | evmCall src t i subs =>
    intro o s s1 h hs
    simp only [run, bind_ok] at h
    obtain ⟨_, _, _, _, h⟩ := h
    exact knows_evm h hs
  | xrplTransact => intro o s s1 h; simp [run] at h
  | doughnutTransact => intro o s s1 h; simp [run] at h
  | sudoCall y ih =>
    intro o s s1 h
    simp only [run, bind_ok] at h
    obtain ⟨_, _, _, _, h⟩ := h
    exact cat (fun s2 h2 => ih h2) h
  | sudoAs a y ih =>
    intro o s s1 h
    simp only [run, bind_ok] at h
    obtain ⟨_, _, _, _, h⟩ := h
    exact cat (fun s2 h2 => ih h2) h
  | proxy fp y ih =>
    intro o s s1 h
    simp only [run, bind_ok] at h
    obtain ⟨_, _, _, _, _, _, _, _, h⟩ := h
    exact cat (fun s2 h2 => gate ih h2) h
  | feeProxy xrp y ih =>
    intro o s s1 h
    simp only [run, bind_ok] at h
    obtain ⟨_, _, _, _, _, _, _, _, h⟩ := h
    exact ih h
  | batch all y z ihy ihz =>
    intro o s s1 h hs
    simp only [run] at h
    split at h
    · split at h
      · simp at h
      · simp only [Except.ok.injEq] at h; subst h; exact hs
    · rename_i s2 h2
      have f2 := gate ihy h2 hs
      split at h
      · split at h
        · simp at h
        · simp only [Except.ok.injEq] at h; subst h; exact f2
      · rename_i s3 h3
        simp only [Except.ok.injEq] at h
        subst h
        exact gate ihz h3 f2

theorem knows_step {c : Cfg} {s s1 : St} {op : Op} (hs : Knows c s) (h : step c s op = .ok s1) : Knows c s1 := by
  have disp : ∀ {v : Via} {x : Call} {o : Origin} {s s1 : St}, dispatch c v x o s = .ok s1 → Knows c s → Knows c s1 := by
    intro v x o s s1 h
    simp only [dispatch, bind_ok] at h
    obtain ⟨_, _, h⟩ := h
    exact knows_run h
  cases op with
  | signed who n tip x =>
    obtain ⟨_, _, _, _, rfl⟩ := signedTx_ok h
    exact settle_keeps (fun s2 h2 => disp h2) (hs.same rfl rfl)
  | ethereum src n t i l =>
    obtain ⟨_, _, rfl⟩ := ethereumTx_ok h
    exact settle_keeps (fun s2 h2 => knows_evm h2) (hs.same rfl rfl)
  | xrpl m sig x =>
    obtain ⟨_, _, _, _, _, _, _, _, _, _, _, rfl⟩ := xrplTx_ok h
    refine settle_keeps (fun s2 h2 h3 => ?_) (hs.same rfl rfl)
    obtain ⟨_, _, _, _, h2⟩ := xTransact_ok h2
    exact disp h2 h3
  | doughnut p n g tip sig x =>
    obtain ⟨_, _, _, _, _, _, _, _, _, _, _, rfl⟩ := doughnutTx_ok h
    refine settle_keeps (fun s2 h2 h3 => ?_) (hs.same rfl rfl)
    obtain ⟨_, _, _, _, _, _, _, _, _, _, _, _, _, rfl⟩ := dTransact_ok h2
    exact settle_keeps (fun s3 h4 => disp h4) h3
  | nextBlock => simp only [step, Except.ok.injEq] at h; subst h; exact hs.same rfl rfl
  | setFunds a x => simp only [step, Except.ok.injEq] at h; subst h; exact hs.same rfl rfl
  | reap a =>
    simp only [step, bind_ok, pure_ok] at h
    obtain ⟨_, _, rfl⟩ := h
    exact hs.same rfl rfl
  | fpNew a fp =>
    simp only [step, bind_ok, pure_ok] at h
    obtain ⟨_, _, _, _, rfl⟩ := h
    exact hs.same rfl rfl
  | fpMove fp b =>
    simp only [step, bind_ok, pure_ok] at h
    obtain ⟨_, _, _, _, rfl⟩ := h
    exact hs.same rfl rfl
  | setDelegate fp d b =>
    simp only [step, bind_ok, pure_ok] at h
    obtain ⟨_, _, rfl⟩ := h
    exact hs.same rfl rfl

/-- **C256** — whoever follows the events of the two pallets from genesis knows, after any history, whether maintenance mode is on, which
accounts, addresses, calls and pallets are blocked, which holders of doughnuts are trusted, and which doughnuts and holders are revoked. -/
theorem C256_page {c : Cfg} {k : Acct} {s : St} (h : Reach c k s) : page (story c s) = picture s := by
  induction h with
  | init => rfl
  | step _ h ih => exact knows_step ih h

/-- **C256** — and foretells the fate of transactions: whether an Ethereum transaction is let in, and whether a call is stopped by the
lists. -/
theorem C256_foretell {c : Cfg} {k : Acct} {s : St} (h : Reach c k s) :
    (∀ src t, (page (story c s)).evmIn src t = evmAllowed s src t) ∧ (∀ x, (page (story c s)).stops (callName x).1 (callName x).2 = paused s x) := by
  rw [C256_page h]
  constructor
  · intro src t
    simp only [Page.evmIn, picture, evmAllowed]
    cases s.active <;> cases s.blockedAcct src <;> cases s.blockedEvm t <;> rfl
  · intro x
    simp only [Page.stops, picture, paused, pausedName]
    by_cases e : lower (callName x).1 ∈ protectedNames
    · rw [if_pos (blockable_iff.mpr e)]
      simp [e]
    · rw [if_neg fun q => e (blockable_iff.mp q)]
      simp [e]

/-- **C256** — a signed transaction that the reader expects to be refused, is: while the mode is on, or from a blocked account, unless its
pallet is protected. -/
theorem C256_refused {c : Cfg} {k : Acct} {s : St} (h : Reach c k s) {who : Acct} {n tip : Nat} {x : Call}
    (hp : ¬ IsProtected (callName x).1) (hb : (page (story c s)).mode = true ∨ (page (story c s)).account who = true) (s1 : St) :
    step c s (.signed who n tip x) ≠ .ok s1 := by
  rw [C256_page h] at hb
  intro hs
  obtain ⟨_, _, hc, _, _⟩ := signedTx_ok hs
  unfold checkMaintenance at hc
  rw [if_neg fun q => hp (blockable_iff.mp q)] at hc
  simp only [bind_ok, ensure_ok] at hc
  obtain ⟨_, h1, h2⟩ := hc
  rcases hb with hb | hb
  · rw [show s.active = true from hb] at h1
    cases h1
  · rw [show s.blockedAcct who = true from hb] at h2
    cases h2

/-- **C256** — no event tells that a protected pallet, or a call of one, was blocked. -/
theorem C256_protected {c : Cfg} {k : Acct} {s : St} (h : Reach c k s) {p : Name} (hp : IsProtected p) :
    (page (story c s)).pallet (lower p) = false ∧ ∀ f, (page (story c s)).call (lower p, f) = false := by
  rw [C256_page h]
  exact C57_never_listed h hp

/-! ## A case -/

/-- Blocks, some nested in a batch, one of which fails; a user revokes a holder and tries to switch the mode on. -/
def demoOps : List Op :=
  [Demo.sudoOp 0 (.pallet (nm "DEX") true),
   .signed 1 1 0 (.sudoCall (.batch false (.maint (.call (nm "Nft") (nm "MINT") true)) (.maint (.pallet (nm "Sudo") true)))),
   Demo.sudoOp 2 (.account 30 true), .signed 1 3 0 (.sudoCall (.whitelist 21 true)), .signed 20 0 0 (.revokeHolder 21 true),
   .signed 13 0 0 (.maint (.enable true)), Demo.sudoOp 4 (.pallet (nm "dex") false), Demo.sudoOp 5 (.evm 1211 true)]

def demoSt : St := exec Demo.cfg Demo.s0 demoOps

theorem reach_demoSt : Reach Demo.cfg 1 demoSt := Demo.reach_exec Demo.reach_s0

example : story Demo.cfg demoSt = [.pallet (nm "dex") true, .call (nm "nft") (nm "mint") true, .account 30 true, .white 21 true,
    .holder 20 21 true, .pallet (nm "dex") false, .evm 1211 true] := by decide +kernel

example : let p := page (story Demo.cfg demoSt)
    p.mode = false ∧ p.pallet (nm "dex") = false ∧ p.stops (nm "Nft") (nm "mint") = true ∧ p.evmIn 30 5 = false ∧ p.evmIn 13 5 = true ∧
    p.evmIn 13 1211 = false ∧ p.holder 20 21 = true ∧ p.account 30 = true := by decide +kernel

example : ¬ IsProtected (callName (.remark [])).1 := by
  unfold IsProtected
  decide +kernel

end Verif.Entry
