import Verif.Outbound.Inv

/-! # Every operation keeps the invariant -/

namespace Verif.Outbound

open Verif Abi

attribute [local irreducible] sendRaw

theorem find_perm {i : Nat} {r : Req} : ∀ {l : List Req}, (l.map Req.id).Nodup →
    l.find? (fun p => decide (p.id = i)) = some r → l.Perm (r :: l.filter (fun p => p.id ≠ i))
  | [], _, h => by cases h
  | x :: l, hn, h => by
    rw [List.find?_cons] at h
    rw [List.map_cons, List.nodup_cons] at hn
    by_cases hx : x.id = i
    · rw [show decide (x.id = i) = true by simpa using hx] at h
      cases h
      have : ∀ p ∈ l, p.id ≠ i := by
        intro p hp e
        exact hn.1 (hx ▸ e ▸ List.mem_map_of_mem hp)
      rw [List.filter_cons_of_neg (by simpa using hx), filter_fresh this]
    · rw [show decide (x.id = i) = false by simpa using hx] at h
      rw [List.filter_cons_of_pos (by simpa using hx)]
      exact ((find_perm hn.2 h).cons x).trans (List.Perm.swap _ _ _)

theorem Good.ids_nodup {c : Cfg} {s : St} (h : Good c s) (ht : s.taken ≤ U64) :
    ((s.sent ++ s.pending).map Req.id).Nodup := by
  have hp := (h.perm ht).map (fun k : Nat × Nat × Nat × List Byte => k.1)
  rw [List.map_map, List.map_map] at hp
  have e1 : (fun k : Nat × Nat × Nat × List Byte => k.1) ∘ key = Req.id := rfl
  have e2 : (fun k : Nat × Nat × Nat × List Byte => k.1) ∘ keyOf c = Prod.fst := rfl
  rw [e1, e2] at hp
  exact hp.nodup_iff.mpr ((h.ids ht).1.imp (fun hab => Nat.ne_of_lt hab))

theorem drain_good {c : Cfg} {s s' : St} {i : Nat} (h : Good c s) (he : drain s i = .ok s') :
    Good c s' ∧ ∃ r, s' = request { s with pending := s.pending.filter (fun p => p.id ≠ i) } r := by
  simp only [drain, bind_ok, ensure_ok, okOr_ok, pure_ok] at he
  obtain ⟨_, _, r, hr, rfl⟩ := he
  have hri : r.id = i := by simpa using List.find?_some hr
  have hrm : r ∈ s.pending := List.mem_of_find?_eq_some hr
  refine ⟨?_, r, rfl⟩
  obtain ⟨f1, f2, _, _, _, _, _, _, f9, f10⟩ :=
    request_frame { s with pending := s.pending.filter (fun p => p.id ≠ i) } r
  refine ⟨?_, ?_, ?_, ?_, ?_, ?_⟩
  · rw [f1, f9]; exact h.next
  · rw [f2]; exact h.set
  · refine request_sets ?_ h.set (h.sets r (List.mem_append_right _ hrm))
    intro p hp
    rcases List.mem_append.mp hp with hp | hp
    · exact h.sets p (List.mem_append_left _ hp)
    · exact h.sets p (List.mem_append_right _ (List.mem_filter.mp hp).1)
  · rw [f10]; exact h.acts
  · rw [f10, f9]; exact h.ids
  · rw [f10, f9]
    intro ht
    have ht : s.taken ≤ U64 := ht
    refine List.Perm.trans (request_perm ?_) ?_
    · intro p hp
      have := (List.mem_filter.mp hp).2
      rw [hri]
      simpa using this
    · have hn := h.ids_nodup ht
      rw [List.map_append] at hn
      have hperm := find_perm (List.Nodup.of_append_right hn) hr
      refine List.Perm.trans ?_ (h.perm ht)
      show (key r :: (s.sent ++ s.pending.filter (fun p => p.id ≠ i)).map key).Perm ((s.sent ++ s.pending).map key)
      rw [← List.map_cons (f := key)]
      refine List.Perm.map key ?_
      refine List.Perm.trans ?_ (List.Perm.append_left s.sent hperm.symm)
      exact List.perm_middle.symm

theorem addr_lt {I : List Byte} {n a : Nat} (h : decodeAddr I n = some a) : a < 2 ^ 160 := by
  unfold decodeAddr at h
  cases hw : wordAt I n with
  | none =>
    rw [hw] at h
    cases h
  | some x =>
    rw [hw] at h
    cases h
    exact Nat.mod_lt _ (by positivity)

theorem mapM_mem {α β : Type} {f : α → Option β} : ∀ {l : List α} {bs : List β}, l.mapM f = some bs →
    ∀ b ∈ bs, ∃ a ∈ l, f a = some b
  | [], bs, h => by
    cases h
    intro b hb
    cases hb
  | x :: l, bs, h => by
    simp only [List.mapM_cons, Option.bind_eq_bind, Option.bind_eq_some_iff, Option.pure_def, Option.some.injEq] at h
    obtain ⟨y, hy, ys, hys, rfl⟩ := h
    intro b hb
    rcases List.mem_cons.mp hb with rfl | hb
    · exact ⟨x, List.mem_cons_self, hy⟩
    · obtain ⟨a, ha, e⟩ := mapM_mem hys b hb
      exact ⟨a, List.mem_cons_of_mem _ ha, e⟩

theorem array_mem {α : Type} {elem : List Byte → Nat → Option α} {I : List Byte} {n : Nat} {vs : List α}
    (h : decodeArray elem I n = some vs) : ∀ v ∈ vs, ∃ J k, elem J k = some v := by
  unfold decodeArray at h
  simp only [Option.bind_eq_bind, Option.bind_eq_some_iff] at h
  obtain ⟨off, _, _, _, len, _, _, _, hm⟩ := h
  intro v hv
  obtain ⟨i, _, e⟩ := mapM_mem hm v hv
  exact ⟨_, _, e⟩

theorem decodeNft_addrs {data : List Byte} {as : List Nat} {ids : List (List Nat)} {d : Nat}
    (h : decodeNft data = some (as, ids, d)) : ∀ a ∈ as, a < 2 ^ 160 := by
  unfold decodeNft at h
  simp only [Option.bind_eq_bind, Option.bind_eq_some_iff, Option.pure_def, Option.some.injEq, Prod.mk.injEq] at h
  obtain ⟨_, _, as', ha, ids', _, d', _, rfl, _, _⟩ := h
  intro a haa
  obtain ⟨J, k, e⟩ := array_mem ha a haa
  exact addr_lt e

theorem decodeErc20_token {data : List Byte} {d : Erc20Peg.Dep} (h : decodeErc20 data = some d) : d.token < 2 ^ 160 := by
  unfold decodeErc20 at h
  simp only [Option.bind_eq_bind, Option.bind_eq_some_iff, Option.pure_def, Option.some.injEq] at h
  obtain ⟨t, ht, x, _, b, _, rfl⟩ := h
  exact addr_lt ht

theorem nftEvent_frame {c : Cfg} {s s' : St} {src : Nat} {data : List Byte} (h : nftEvent c s src data = .ok s') :
    ∃ n, s' = { s with nft := n } ∧ (s.nft.contract = src →
      n = (NftPeg.onEvent c.nftCfg s.nft (decodeNftEvent data)).1) ∧ (s.nft.contract ≠ src → n = s.nft) := by
  unfold nftEvent at h
  split at h
  · rename_i hs
    simp only [bind_ok, ensure_ok, pure_ok] at h
    obtain ⟨_, _, rfl⟩ := h
    exact ⟨_, rfl, fun _ => rfl, fun k => absurd hs.symm k⟩
  · rename_i hs
    cases h
    exact ⟨s.nft, rfl, fun k => absurd k.symm hs, fun _ => rfl⟩

theorem echoEvent_cases (s : St) (src : Nat) (data : List Byte) : echoEvent s src data = s ∨
    ∃ n d, n < U64 ∧ d < 2 ^ 160 ∧ echoEvent s src data = (sendRaw s src d (echoMsg 1 n d) (.pong src d n)).1 := by
  unfold echoEvent
  split
  · rename_i k n d _ _ hd
    split
    · refine .inr ⟨min n (U64 - 1), d, ?_, addr_lt hd, rfl⟩
      unfold U64
      omega
    · exact .inl rfl
  · exact .inl rfl

/-- An event keeps the invariant. -/
theorem route_inv {c : Cfg} {s s' : St} {src dst : Nat} {data : List Byte} (hc : CfgOk c) (h : Inv c s)
    (ho : Outsider c src)
    (he : route c s src dst data = .ok s') :
    Inv c s' ∧ (s'.peg = s.peg ∨ ∃ d, dst = c.peg ∧ decodeErc20 data = some d ∧
      Erc20Peg.deposit c.pegCfg s.peg src d = .ok s'.peg) := by
  unfold route at he
  split at he
  · cases he
    rcases echoEvent_cases s src data with e | ⟨n, d, hn, hd, e⟩
    · rw [e]
      exact ⟨h, .inl rfl⟩
    · rw [e]
      refine ⟨sendRaw_inv h rfl rfl rfl ⟨ho.1, hd, hn⟩ ho (fun _ _ k => by cases k), .inl ?_⟩
      exact (sendRaw_frame s src d (echoMsg 1 n d) (.pong src d n)).2.2.2.2.2.1
  · split at he
    · rename_i hp
      cases he
      unfold pegEvent
      split
      · exact ⟨h, .inl rfl⟩
      · rename_i d hd
        split
        · rename_i p hpo
          obtain ⟨t1, t2, t3, _⟩ := deposit_typed h.peg (decodeErc20_token hd) hpo
          refine ⟨⟨h.good.congr rfl rfl rfl rfl rfl rfl, t1, h.nft, h.contract, h.session, ?_⟩,
            .inr ⟨d, hp, hd, hpo⟩⟩
          show s.log.filterMap erc20Of = p.outbox
          rw [t2]
          exact h.out
        · exact ⟨h, .inl rfl⟩
    · split at he
      · obtain ⟨n, rfl, hn1, hn2⟩ := nftEvent_frame he
        have hn : NftTyped n := by
          by_cases hs : s.nft.contract = src
          · rw [hn1 hs]
            refine onEvent_typed h.nft ?_
            intro as ids d e
            unfold decodeNftEvent at e
            split at e
            · cases e
            · split at e
              · cases e' : decodeNft data with
                | none =>
                  rw [e'] at e
                  cases e
                | some v =>
                  rw [e'] at e
                  cases e
                  exact decodeNft_addrs e'
              · split at e <;> cases e
          · rw [hn2 hs]
            exact h.nft
        exact ⟨⟨h.good.congr rfl rfl rfl rfl rfl rfl, h.peg, hn, h.contract, h.session, h.out⟩, .inl rfl⟩
      · cases he
        exact ⟨h, .inl rfl⟩

theorem sendNft_inv {c : Cfg} {s s' : St} {r : NftPeg.St × NftPeg.Msg} (h : Inv c s) (ht : NftTyped r.1)
    (hm : MsgFits r.2) (he : sendNft c s r = .ok s') : Inv c s' ∧ s'.peg = s.peg := by
  unfold sendNft at he
  obtain ⟨rfl, _⟩ := send_ok he
  have h0 : Inv c { s with nft := r.1 } := ⟨h.good.congr rfl rfl rfl rfl rfl rfl, h.peg, ht, h.contract, h.session, h.out⟩
  refine ⟨sendRaw_inv h0 rfl rfl rfl hm trivial (fun _ _ k => by cases k), ?_⟩
  exact (sendRaw_frame { s with nft := r.1 } c.nftPeg r.2.contract (nftMsg r.2.groups r.2.dest) (.nft r.2)).2.2.2.2.2.1

/-- What an operation does to the ERC-20 peg. -/
def PegStep (c : Cfg) (s s' : St) : Op → Prop
  | .peg o => Erc20Peg.step c.pegCfg s.peg o = .ok s'.peg
  | .event src _ data => s'.peg = s.peg ∨ ∃ d, decodeErc20 data = some d ∧
      Erc20Peg.step c.pegCfg s.peg (.deposit src d) = .ok s'.peg
  | _ => s'.peg = s.peg

theorem step_inv {c : Cfg} {s s' : St} {op : Op} (hc : CfgOk c) (h : Inv c s) (hop : Env c s op)
    (he : step c s op = .ok s') : Inv c s' ∧ PegStep c s s' op := by
  cases op with
  | ping who dest =>
    simp only [step, ping, bind_ok, ensure_ok, pure_ok] at he
    obtain ⟨_, hs, s1, h1, rfl⟩ := he
    obtain ⟨rfl, _⟩ := send_ok h1
    have hn : s.session < U64 := h.session
    have k := sendRaw_inv (c := c) (s := s) (src := who) (dst := dest) (msg := echoMsg 0 s.session dest)
      (a := .ping who dest s.session) h rfl rfl rfl ⟨hop.1.1, hop.2, hn⟩ hop.1 (fun _ _ k => by cases k)
    refine ⟨⟨k.good.congr rfl rfl rfl rfl rfl rfl, k.peg, k.nft, k.contract, hs, k.out⟩, ?_⟩
    exact (sendRaw_frame s who dest (echoMsg 0 s.session dest) (.ping who dest s.session)).2.2.2.2.2.1
  | peg o =>
    obtain ⟨k, p, hp, e⟩ := pegOp_inv h hop he
    exact ⟨k, by rw [← e] at hp; exact hp⟩
  | nftWithdraw who colls serials dest =>
    simp only [step, nftWithdraw, NftPeg.withdraw, bind_ok, ensure_ok] at he
    obtain ⟨r, ⟨_, _, hr⟩, he⟩ := he
    obtain ⟨t1, t2, _⟩ := doWithdrawal_typed (n' := r.1) (m := r.2) h.nft hop.1 hop.2 hr
    exact sendNft_inv h t1 t2 he
  | nftReclaim who b dest =>
    simp only [step, nftReclaim, NftPeg.reclaim, bind_ok, ensure_ok, okOr_ok] at he
    obtain ⟨r, ⟨b', hb, _, _, hr⟩, he⟩ := he
    have hser : ∀ l ∈ [b'.serials], ∀ k ∈ l, k < U32 := by
      intro l hl
      cases List.mem_singleton.mp hl
      exact h.nft.blocked b b' hb
    obtain ⟨t1, t2, _⟩ := doWithdrawal_typed (n' := r.1) (m := r.2) h.nft hser hop hr
    exact sendNft_inv h t1 t2 he
  | nftPallet o =>
    simp only [step, bind_ok, pure_ok] at he
    obtain ⟨n, _, rfl⟩ := he
    exact ⟨⟨h.good.congr rfl rfl rfl rfl rfl rfl, h.peg, h.nft.other rfl rfl rfl, h.contract, h.session, h.out⟩, rfl⟩
  | setNftContract a =>
    cases he
    exact ⟨⟨h.good.congr rfl rfl rfl rfl rfl rfl, h.peg, ⟨h.nft.toEth, h.nft.blocked, hop⟩, h.contract, h.session, h.out⟩, rfl⟩
  | setContract a =>
    cases he
    exact ⟨⟨h.good.congr rfl rfl rfl rfl rfl rfl, h.peg, h.nft, hop, h.session, h.out⟩, rfl⟩
  | setPaused b =>
    cases he
    exact ⟨⟨h.good.congr rfl rfl rfl rfl rfl rfl, h.peg, h.nft, h.contract, h.session, h.out⟩, rfl⟩
  | handover keys =>
    cases he
    have hn : (s.setId + 1) % U64 < U64 := Nat.mod_lt _ (by unfold U64; omega)
    have k := sendRaw_inv (c := c) (s := s) (src := c.bridge) (dst := s.contract)
      (msg := handoverMsg (keys.map (convert c)) ((s.setId + 1) % U64))
      (a := .handover s.contract keys ((s.setId + 1) % U64)) h rfl rfl rfl ⟨h.contract, hn⟩ trivial
      (fun _ _ k => by cases k)
    refine ⟨⟨k.good.congr rfl rfl rfl rfl rfl rfl, k.peg, k.nft, k.contract, k.session, k.out⟩, ?_⟩
    exact (sendRaw_frame s c.bridge s.contract (handoverMsg (keys.map (convert c)) ((s.setId + 1) % U64))
      (.handover s.contract keys ((s.setId + 1) % U64))).2.2.2.2.2.1
  | finalise =>
    cases he
    refine ⟨⟨⟨h.good.next, ?_, h.good.sets, h.good.acts, h.good.ids, h.good.perm⟩, h.peg, h.nft, h.contract, h.session, h.out⟩, rfl⟩
    exact Nat.mod_lt _ (by unfold U64; omega)
  | drain i =>
    obtain ⟨k, r, rfl⟩ := drain_good h.good he
    obtain ⟨_, _, _, _, f5, f6, f7, f8, _, f10⟩ :=
      request_frame { s with pending := s.pending.filter (fun p => p.id ≠ i) } r
    refine ⟨⟨k, ?_, ?_, ?_, ?_, ?_⟩, f7⟩
    · rw [f7]; exact h.peg
    · rw [f8]; exact h.nft
    · rw [f5]; exact h.contract
    · rw [f6]; exact h.session
    · rw [f10, f7]; exact h.out
  | event src dst data =>
    obtain ⟨k1, k2⟩ := route_inv hc h hop.1 he
    refine ⟨k1, ?_⟩
    rcases k2 with e | ⟨d, _, hd, hp⟩
    · exact .inl e
    · exact .inr ⟨d, hd, hp⟩

theorem Reach.inv {c : Cfg} {G : St → Op → Prop} {g s : St} (hc : CfgOk c) (hG : ∀ s op, G s op → Env c s op)
    (h : Reach c G g s) : Inv c s := by
  induction h with
  | init hg => exact genesis_inv hg
  | step _ hop he ih => exact (step_inv hc ih (hG _ _ hop) he).1

end Verif.Outbound
