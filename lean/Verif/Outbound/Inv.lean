import Verif.Outbound.Typed

/-! # The invariant of the histories -/

namespace Verif.Outbound

open Verif Abi

/-- A request without the number of the validator set. -/
def key (r : Req) : Nat × Nat × Nat × List Byte := (r.id, r.source, r.destination, r.message)

/-- The request an act led to. -/
def keyOf (c : Cfg) (p : Nat × Act) : Nat × Nat × Nat × List Byte := (p.1, p.2.source c, p.2.dest, p.2.message c)

/-- An act of an outsider is one of an outsider. -/
def Act.own (c : Cfg) : Act → Prop
  | .ping who _ _ => Outsider c who
  | .pong src _ _ => Outsider c src
  | _ => True

/-- The withdrawals among the acts. -/
def erc20Of : Nat × Act → Option (Nat × Erc20Peg.Wd)
  | (_, .erc20 d w) => some (d, w)
  | _ => none

structure Good (c : Cfg) (s : St) : Prop where
  next : s.nextId = s.taken % U64
  set : s.setId < U64
  sets : ∀ r ∈ s.sent ++ s.pending, r.setId < U64
  acts : ∀ p ∈ s.log, p.2.fits ∧ p.2.own c ∧ (p.2.message c).length ≤ maxEthData
  ids : s.taken ≤ U64 → (s.log.map Prod.fst).Pairwise (· < ·) ∧ ∀ p ∈ s.log, p.1 < s.taken
  perm : s.taken ≤ U64 → ((s.sent ++ s.pending).map key).Perm (s.log.map (keyOf c))

theorem Good.congr {c : Cfg} {s s' : St} (h : Good c s) (e1 : s'.nextId = s.nextId) (e2 : s'.setId = s.setId)
    (e3 : s'.sent = s.sent) (e4 : s'.pending = s.pending) (e5 : s'.log = s.log) (e6 : s'.taken = s.taken) : Good c s' := by
  refine ⟨?_, ?_, ?_, ?_, ?_, ?_⟩
  · rw [e1, e6]; exact h.next
  · rw [e2]; exact h.set
  · rw [e3, e4]; exact h.sets
  · rw [e5]; exact h.acts
  · rw [e5, e6]; exact h.ids
  · rw [e3, e4, e5, e6]; exact h.perm

theorem key_set (r : Req) (n : Nat) : key { r with setId := n } = key r := rfl

theorem filter_fresh {l : List Req} {i : Nat} (h : ∀ p ∈ l, p.id ≠ i) : l.filter (fun p => p.id ≠ i) = l :=
  List.filter_eq_self.mpr (fun p hp => by simpa using h p hp)

/-- What a request adds. -/
theorem request_perm {s : St} {r : Req} (h : ∀ p ∈ s.pending, p.id ≠ r.id) :
    (((request s r).sent ++ (request s r).pending).map key).Perm (key r :: (s.sent ++ s.pending).map key) := by
  unfold request
  split
  · dsimp only
    rw [filter_fresh h, List.map_append, List.map_append, List.map_cons]
    exact List.perm_middle
  · dsimp only
    rw [List.cons_append, List.map_cons]
    split
    · rw [key_set]
    · exact List.Perm.refl _

theorem request_frame (s : St) (r : Req) : (request s r).nextId = s.nextId ∧ (request s r).setId = s.setId ∧
    (request s r).manual = s.manual ∧ (request s r).change = s.change ∧ (request s r).contract = s.contract ∧
    (request s r).session = s.session ∧ (request s r).peg = s.peg ∧ (request s r).nft = s.nft ∧
    (request s r).taken = s.taken ∧ (request s r).log = s.log := by
  unfold request
  split <;> exact ⟨rfl, rfl, rfl, rfl, rfl, rfl, rfl, rfl, rfl, rfl⟩

theorem request_sets {s : St} {r : Req} (h : ∀ p ∈ s.sent ++ s.pending, p.setId < U64) (hs : s.setId < U64)
    (hr : r.setId < U64) : ∀ p ∈ (request s r).sent ++ (request s r).pending, p.setId < U64 := by
  intro p hp
  unfold request at hp
  split at hp
  · rcases List.mem_append.mp hp with hp | hp
    · exact h p (List.mem_append_left _ hp)
    · rcases List.mem_cons.mp hp with rfl | hp
      · exact hr
      · exact h p (List.mem_append_right _ (List.mem_filter.mp hp).1)
  · dsimp only at hp
    rcases List.mem_append.mp hp with hp | hp
    · rcases List.mem_cons.mp hp with rfl | hp
      · split
        · exact hs
        · exact hr
      · exact h p (List.mem_append_left _ hp)
    · exact h p (List.mem_append_right _ hp)

/-- The numbers of the requests are numbers of the record. -/
theorem Good.id_lt {c : Cfg} {s : St} (h : Good c s) (ht : s.taken ≤ U64) {r : Req} (hr : r ∈ s.sent ++ s.pending) :
    r.id < s.taken := by
  have hk : key r ∈ s.log.map (keyOf c) := (h.perm ht).subset (List.mem_map_of_mem hr)
  obtain ⟨p, hp, e⟩ := List.mem_map.mp hk
  have : p.1 = r.id := (Prod.mk.inj e).1
  rw [← this]
  exact (h.ids ht).2 p hp

theorem Good.take {c : Cfg} {s : St} (h : Good c s) : Good c (takeId s) := by
  refine ⟨?_, h.set, h.sets, h.acts, ?_, ?_⟩
  · show (s.nextId + 1) % U64 = (s.taken + 1) % U64
    rw [h.next]
    unfold U64
    omega
  · intro ht
    have ht' : s.taken + 1 ≤ U64 := ht
    obtain ⟨h1, h2⟩ := h.ids (by omega)
    exact ⟨h1, fun p hp => Nat.lt_succ_of_lt (h2 p hp)⟩
  · intro ht
    have ht' : s.taken + 1 ≤ U64 := ht
    exact h.perm (by omega)

/-- Sending keeps the record. -/
theorem sendRaw_good {c : Cfg} {s : St} {src dst : Nat} {msg : List Byte} {a : Act} (h : Good c s)
    (e1 : src = a.source c) (e2 : dst = a.dest) (e3 : msg = a.message c) (hf : a.fits) (ho : a.own c) :
    Good c (sendRaw s src dst msg a).1 := by
  subst e1 e2 e3
  unfold sendRaw
  split
  · rename_i hl
    dsimp only
    set r : Req := ⟨a.source c, a.dest, a.message c, s.setId, s.nextId⟩ with hr
    obtain ⟨f1, f2, _, _, _, _, _, _, f9, f10⟩ := request_frame (takeId s) r
    have hg := h.take
    refine ⟨?_, ?_, ?_, ?_, ?_, ?_⟩
    · show (request (takeId s) r).nextId = (request (takeId s) r).taken % U64
      rw [f1, f9]
      exact hg.next
    · show (request (takeId s) r).setId < U64
      rw [f2]
      exact hg.set
    · exact request_sets hg.sets hg.set h.set
    · intro p hp
      rcases List.mem_append.mp hp with hp | hp
      · exact h.acts p hp
      · cases List.mem_singleton.mp hp
        exact ⟨hf, ho, hl⟩
    · intro ht
      have ht' : s.taken + 1 ≤ U64 := by
        have : (request (takeId s) r).taken ≤ U64 := ht
        rw [f9] at this
        exact this
      have hid : s.nextId = s.taken := by
        rw [h.next]
        exact Nat.mod_eq_of_lt (by omega)
      obtain ⟨h1, h2⟩ := h.ids (by omega)
      constructor
      · show ((s.log ++ [(s.nextId, a)]).map Prod.fst).Pairwise (· < ·)
        rw [List.map_append, List.pairwise_append]
        refine ⟨h1, List.pairwise_singleton _ _, ?_⟩
        intro x hx y hy
        obtain ⟨p, hp, rfl⟩ := List.mem_map.mp hx
        cases List.mem_singleton.mp hy
        show p.1 < s.nextId
        rw [hid]
        exact h2 p hp
      · intro p hp
        show p.1 < (request (takeId s) r).taken
        rw [f9]
        rcases List.mem_append.mp hp with hp | hp
        · exact Nat.lt_succ_of_lt (h2 p hp)
        · cases List.mem_singleton.mp hp
          show s.nextId < s.taken + 1
          omega
    · intro ht
      have ht' : s.taken + 1 ≤ U64 := by
        have : (request (takeId s) r).taken ≤ U64 := ht
        rw [f9] at this
        exact this
      have hid : s.nextId = s.taken := by
        rw [h.next]
        exact Nat.mod_eq_of_lt (by omega)
      have hfresh : ∀ p ∈ (takeId s).pending, p.id ≠ r.id := by
        intro p hp
        have := h.id_lt (by omega) (List.mem_append_right s.sent hp)
        show p.id ≠ s.nextId
        omega
      show (((request (takeId s) r).sent ++ (request (takeId s) r).pending).map key).Perm
        ((s.log ++ [(s.nextId, a)]).map (keyOf c))
      refine (request_perm hfresh).trans ?_
      rw [List.map_append (l₁ := s.log), List.map_singleton]
      refine List.Perm.trans ?_ (List.perm_append_singleton (keyOf c (s.nextId, a)) _).symm
      exact List.Perm.cons _ (h.perm (by omega))
  · exact h.take

/-- What sending leaves alone. -/
theorem sendRaw_frame (s : St) (src dst : Nat) (msg : List Byte) (a : Act) :
    (sendRaw s src dst msg a).1.setId = s.setId ∧ (sendRaw s src dst msg a).1.manual = s.manual ∧
    (sendRaw s src dst msg a).1.change = s.change ∧ (sendRaw s src dst msg a).1.contract = s.contract ∧
    (sendRaw s src dst msg a).1.session = s.session ∧ (sendRaw s src dst msg a).1.peg = s.peg ∧
    (sendRaw s src dst msg a).1.nft = s.nft ∧
    (sendRaw s src dst msg a).1.taken = s.taken + 1 := by
  unfold sendRaw
  split
  · obtain ⟨_, f2, f3, f4, f5, f6, f7, f8, f9, _⟩ :=
      request_frame (takeId s) ⟨src, dst, msg, s.setId, s.nextId⟩
    exact ⟨f2, f3, f4, f5, f6, f7, f8, f9⟩
  · exact ⟨rfl, rfl, rfl, rfl, rfl, rfl, rfl, rfl⟩

theorem sendRaw_log (s : St) (src dst : Nat) (msg : List Byte) (a : Act) : (sendRaw s src dst msg a).1.log =
    if msg.length ≤ maxEthData then s.log ++ [(s.nextId, a)] else s.log := by
  unfold sendRaw
  split <;> rfl

theorem send_ok {s s' : St} {src dst : Nat} {msg : List Byte} {a : Act} (h : send s src dst msg a = .ok s') :
    s' = (sendRaw s src dst msg a).1 ∧ msg.length ≤ maxEthData := by
  unfold send at h
  split at h
  · rename_i h2
    cases h
    refine ⟨rfl, ?_⟩
    unfold sendRaw at h2
    split at h2
    · assumption
    · cases h2
  · cases h

structure Inv (c : Cfg) (s : St) : Prop where
  good : Good c s
  peg : Typed s.peg
  nft : NftTyped s.nft
  contract : s.contract < 2 ^ 160
  session : s.session < U64
  out : s.log.filterMap erc20Of = s.peg.outbox

theorem genesis_inv {c : Cfg} {s : St} (h : Genesis c s) : Inv c s := by
  refine ⟨⟨?_, h.setId, ?_, ?_, ?_, ?_⟩, ⟨⟨h.toErc, ?_, ?_, h.pegContract, h.rootContract⟩, ?_⟩, ⟨?_, ?_, h.nftContract⟩,
    h.contract, h.session, ?_⟩
  · rw [h.nextId, h.taken]
    rfl
  · rw [h.sent, h.pending]
    intro r hr
    cases hr
  · rw [h.log]
    intro r hr
    cases hr
  · rw [h.log]
    exact fun _ => ⟨List.Pairwise.nil, fun _ hr => by cases hr⟩
  · rw [h.sent, h.pending, h.log]
    exact fun _ => List.Perm.refl _
  · intro i src w hi
    rw [h.peg.payments i] at hi
    cases hi
  · rw [h.peg.outbox]
    intro m hm
    cases hm
  · intro i d hi
    rw [h.peg.payments i] at hi
    cases hi
  · intro i a hi
    rw [h.toEth i] at hi
    cases hi
  · intro i a hi
    rw [h.blocked i] at hi
    cases hi
  · rw [h.log, h.peg.outbox]
    rfl

/-- Sending anything but a withdrawal of the ERC-20 peg. -/
theorem sendRaw_inv {c : Cfg} {s : St} {src dst : Nat} {msg : List Byte} {a : Act} (h : Inv c s)
    (e1 : src = a.source c) (e2 : dst = a.dest) (e3 : msg = a.message c) (hf : a.fits) (ho : a.own c)
    (hn : ∀ d w, a ≠ .erc20 d w) : Inv c (sendRaw s src dst msg a).1 := by
  obtain ⟨_, _, _, f4, f5, f6, f7, _⟩ := sendRaw_frame s src dst msg a
  refine ⟨sendRaw_good h.good e1 e2 e3 hf ho, ?_, ?_, ?_, ?_, ?_⟩
  · rw [f6]; exact h.peg
  · rw [f7]; exact h.nft
  · rw [f4]; exact h.contract
  · rw [f5]; exact h.session
  · rw [f6, sendRaw_log]
    split
    · rw [List.filterMap_append, h.out]
      have : erc20Of (s.nextId, a) = none := by
        cases a with
        | erc20 d w => exact absurd rfl (hn d w)
        | nft m => rfl
        | ping x y z => rfl
        | pong x y z => rfl
        | handover x y z => rfl
      simp [this]
    · exact h.out

/-- Sending the messages of the ERC-20 peg. -/
theorem foldl_erc20 {c : Cfg} : ∀ (ms : List (Nat × Erc20Peg.Wd)) {s : St}, Good c s →
    (∀ m ∈ ms, m.1 < 2 ^ 160 ∧ WdFits m.2) →
    Good c (ms.foldl (sendErc20 c) s) ∧ (ms.foldl (sendErc20 c) s).peg = s.peg ∧
    (ms.foldl (sendErc20 c) s).nft = s.nft ∧ (ms.foldl (sendErc20 c) s).contract = s.contract ∧
    (ms.foldl (sendErc20 c) s).session = s.session ∧
    (ms.foldl (sendErc20 c) s).log.filterMap erc20Of = s.log.filterMap erc20Of ++ ms
  | [], s, h, _ => ⟨h, rfl, rfl, rfl, rfl, (List.append_nil _).symm⟩
  | m :: ms, s, h, hm => by
    have h1 : Good c (sendErc20 c s m) := by
      unfold sendErc20
      exact sendRaw_good h rfl rfl rfl (hm m List.mem_cons_self) trivial
    obtain ⟨_, _, _, f4, f5, f6, f7, _⟩ := sendRaw_frame s c.peg m.1 (erc20Msg m.2) (.erc20 m.1 m.2)
    obtain ⟨g1, g2, g3, g4, g5, g7⟩ := foldl_erc20 ms h1 (fun x hx => hm x (List.mem_cons_of_mem _ hx))
    have f4' : (sendErc20 c s m).contract = s.contract := by
      unfold sendErc20
      exact f4
    have f5' : (sendErc20 c s m).session = s.session := by
      unfold sendErc20
      exact f5
    have f6' : (sendErc20 c s m).peg = s.peg := by
      unfold sendErc20
      exact f6
    have f7' : (sendErc20 c s m).nft = s.nft := by
      unfold sendErc20
      exact f7
    rw [List.foldl_cons]
    refine ⟨g1, g2.trans f6', g3.trans f7', g4.trans f4', g5.trans f5', ?_⟩
    rw [g7]
    have hl : (sendErc20 c s m).log = s.log ++ [(s.nextId, .erc20 m.1 m.2)] := by
      unfold sendErc20
      rw [sendRaw_log, if_pos]
      rw [erc20_length]
      unfold maxEthData
      omega
    rw [hl, List.filterMap_append, List.append_assoc]
    rfl

/-- Only events add deposits. -/
theorem peg_accepted {cc : Cfg} {S : St} {c : Erc20Peg.Cfg} {q p : Erc20Peg.St} {op : Erc20Peg.Op}
    (hop : Env cc S (.peg op)) (hp : Erc20Peg.step c q op = .ok p) : p.accepted = q.accepted := by
  cases op with
  | deposit src d => exact hop.elim
  | withdraw w a y b e =>
    simp only [Erc20Peg.step, Erc20Peg.withdraw, bind_ok, ensure_ok, okOr_ok] at hp
    obtain ⟨_, _, _, _, t, _, hp⟩ := hp
    split at hp
    · simp only [bind_ok, ensure_ok, pure_ok] at hp
      obtain ⟨_, _, L, _, rfl⟩ := hp
      unfold Erc20Peg.delayPayment
      split <;> rfl
    · simp only [bind_ok, pure_ok] at hp
      obtain ⟨L, _, rfl⟩ := hp
      rfl
  | nextBlock =>
    simp only [Erc20Peg.step, Erc20Peg.nextBlock, bind_ok, ensure_ok, pure_ok] at hp
    obtain ⟨_, _, rfl⟩ := hp
    split <;> rfl
  | idle m =>
    simp only [Erc20Peg.step, Erc20Peg.idle, bind_ok, ensure_ok, pure_ok] at hp
    obtain ⟨_, _, rfl⟩ := hp
    exact idle_accepted _ _ _ _
  | claim b i =>
    simp only [Erc20Peg.step, Erc20Peg.claim, bind_ok, ensure_ok, pure_ok] at hp
    obtain ⟨_, _, rfl⟩ := hp
    exact process_accepted _ _
  | setActive a b d e => cases hp; rfl
  | setContracts a b => cases hp; rfl
  | setMap a t => cases hp; rfl
  | setDelay a m d => cases hp; rfl
  | takeAsset =>
    simp only [Erc20Peg.step, bind_ok, pure_ok] at hp
    obtain ⟨_, _, rfl⟩ := hp
    rfl
  | ledger L => cases hp; rfl

theorem pegOp_inv {c : Cfg} {s s' : St} {op : Erc20Peg.Op} (h : Inv c s) (hop : Env c s (.peg op))
    (he : pegOp c s op = .ok s') : Inv c s' ∧ ∃ p, Erc20Peg.step c.pegCfg s.peg op = .ok p ∧ s'.peg = p := by
  simp only [pegOp, bind_ok, pure_ok] at he
  obtain ⟨p, hp, rfl⟩ := he
  obtain ⟨t, x, hx⟩ := peg_typed h.peg hop hp
  have hd : p.outbox.drop s.peg.outbox.length = x := by
    rw [← hx]
    simp
  rw [hd]
  obtain ⟨g1, g2, g3, g4, g5, g7⟩ := foldl_erc20 (c := c) x (s := { s with peg := p })
    (h.good.congr rfl rfl rfl rfl rfl rfl)
    (fun m hm => t.1.outbox m (by rw [← hx]; exact List.mem_append_right _ hm))
  refine ⟨⟨g1, ?_, ?_, ?_, ?_, ?_⟩, p, hp, g2⟩
  · rw [g2]; exact t
  · rw [g3]; exact h.nft
  · rw [g4]; exact h.contract
  · rw [g5]; exact h.session
  · rw [g2, g7, ← hx]
    show s.log.filterMap erc20Of ++ x = s.peg.outbox ++ x
    rw [h.out]

end Verif.Outbound
