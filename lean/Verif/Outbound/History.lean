import Verif.Outbound.Step

/-! # What is sent is what the operations had to say -/

namespace Verif.Outbound

open Verif Abi

theorem sendRaw_new (s : St) (src dst : Nat) (msg : List Byte) (a : Act) :
    ∃ new, (sendRaw s src dst msg a).1.log = s.log ++ new ∧ (new.map Prod.snd).Sublist [a] ∧
      (msg.length ≤ maxEthData → new = [(s.nextId, a)]) ∧ (maxEthData < msg.length → new = []) := by
  rw [sendRaw_log]
  split
  · exact ⟨[(s.nextId, a)], rfl, List.Sublist.refl _, fun _ => rfl, fun h => by omega⟩
  · exact ⟨[], by simp, List.nil_sublist _, fun h => by omega, fun _ => rfl⟩

theorem foldl_log {c : Cfg} : ∀ (ms : List (Nat × Erc20Peg.Wd)) (s : St),
    ∃ new, (ms.foldl (sendErc20 c) s).log = s.log ++ new ∧ new.map Prod.snd = ms.map (fun m => Act.erc20 m.1 m.2)
  | [], s => ⟨[], by simp, rfl⟩
  | m :: ms, s => by
    obtain ⟨n1, e1, _, e2, _⟩ := sendRaw_new s c.peg m.1 (erc20Msg m.2) (.erc20 m.1 m.2)
    have e3 := e2 (by rw [erc20_length]; unfold maxEthData; omega)
    obtain ⟨n2, e4, e5⟩ := foldl_log (c := c) ms (sendErc20 c s m)
    refine ⟨n1 ++ n2, ?_, ?_⟩
    · rw [List.foldl_cons, e4, show (sendErc20 c s m).log = s.log ++ n1 by unfold sendErc20; exact e1, List.append_assoc]
    · rw [List.map_append, e5, e3]
      rfl

theorem request_log (s : St) (r : Req) : (request s r).log = s.log := (request_frame s r).2.2.2.2.2.2.2.2.2

attribute [local irreducible] sendRaw

theorem step_new {c : Cfg} {s s' : St} {op : Op} (hc : CfgOk c) (he : step c s op = .ok s') :
    ∃ new, s'.log = s.log ++ new ∧ (new.map Prod.snd).Sublist (made c s op) := by
  cases op with
  | ping who dest =>
    simp only [step, ping, bind_ok, ensure_ok, pure_ok] at he
    obtain ⟨_, hs, s1, h1, rfl⟩ := he
    obtain ⟨rfl, _⟩ := send_ok h1
    obtain ⟨new, e, h, _⟩ := sendRaw_new s who dest (echoMsg 0 s.session dest) (.ping who dest s.session)
    exact ⟨new, e, h⟩
  | peg o =>
    simp only [step, pegOp, bind_ok, pure_ok] at he
    obtain ⟨p, hp, rfl⟩ := he
    obtain ⟨new, e, h⟩ := foldl_log (c := c) (p.outbox.drop s.peg.outbox.length) { s with peg := p }
    refine ⟨new, e, ?_⟩
    simp only [made, hp, h]
    exact List.Sublist.refl _
  | nftWithdraw who colls serials dest =>
    simp only [step, nftWithdraw, bind_ok] at he
    obtain ⟨r, hr, he⟩ := he
    unfold sendNft at he
    obtain ⟨rfl, _⟩ := send_ok he
    obtain ⟨new, e, h, _⟩ := sendRaw_new { s with nft := r.1 } c.nftPeg r.2.contract (nftMsg r.2.groups r.2.dest) (.nft r.2)
    refine ⟨new, e, ?_⟩
    simp only [made, hr]
    exact h
  | nftReclaim who b dest =>
    simp only [step, nftReclaim, bind_ok] at he
    obtain ⟨r, hr, he⟩ := he
    unfold sendNft at he
    obtain ⟨rfl, _⟩ := send_ok he
    obtain ⟨new, e, h, _⟩ := sendRaw_new { s with nft := r.1 } c.nftPeg r.2.contract (nftMsg r.2.groups r.2.dest) (.nft r.2)
    refine ⟨new, e, ?_⟩
    simp only [made, hr]
    exact h
  | nftPallet o =>
    simp only [step, bind_ok, pure_ok] at he
    obtain ⟨n, _, rfl⟩ := he
    exact ⟨[], by simp, List.nil_sublist _⟩
  | setNftContract a =>
    cases he
    exact ⟨[], by simp, List.nil_sublist _⟩
  | setContract a =>
    cases he
    exact ⟨[], by simp, List.nil_sublist _⟩
  | setPaused b =>
    cases he
    exact ⟨[], by simp, List.nil_sublist _⟩
  | handover keys =>
    cases he
    obtain ⟨new, e, h, _⟩ := sendRaw_new s c.bridge s.contract (handoverMsg (keys.map (convert c)) ((s.setId + 1) % U64))
      (.handover s.contract keys ((s.setId + 1) % U64))
    exact ⟨new, e, h⟩
  | finalise =>
    cases he
    exact ⟨[], by simp [finalise], List.nil_sublist _⟩
  | drain i =>
    simp only [step, drain, bind_ok, ensure_ok, okOr_ok, pure_ok] at he
    obtain ⟨_, _, r, _, rfl⟩ := he
    exact ⟨[], by rw [request_log]; simp, List.nil_sublist _⟩
  | event src dst data =>
    simp only [step] at he
    have hlog : ∀ x : St, x.log = s.log → ∃ new, x.log = s.log ++ new ∧
        (new.map Prod.snd).Sublist (made c s (.event src dst data)) :=
      fun x e => ⟨[], by rw [e]; simp, List.nil_sublist _⟩
    unfold route at he
    split at he
    · rename_i hd
      cases he
      unfold echoEvent
      split
      · rename_i k n d h1 h2 h3
        split
        · rename_i hk
          obtain ⟨new, e, h, _⟩ := sendRaw_new s src d
            (echoMsg 1 (min n (U64 - 1)) d) (.pong src d (min n (U64 - 1)))
          refine ⟨new, e, ?_⟩
          unfold decodeAddr at h3
          cases h4 : wordAt data 64 with
          | none =>
            rw [h4] at h3
            cases h3
          | some x =>
            rw [h4] at h3
            cases h3
            have hk1 : k = 1 := by omega
            simp only [made, h1, h2, h4, hd, hk1, and_self, if_true]
            exact h
        · exact hlog _ rfl
      · exact hlog _ rfl
    · split at he
      · cases he
        unfold pegEvent
        split
        · exact hlog _ rfl
        · split
          · exact hlog _ rfl
          · exact hlog _ rfl
      · split at he
        · obtain ⟨n, rfl, _⟩ := nftEvent_frame he
          exact hlog _ rfl
        · cases he
          exact hlog _ rfl

theorem Hist.reach {c : Cfg} {G : St → Op → Prop} {g s : St} {acts : List Act} {deps : List Erc20Peg.Dep}
    (h : Hist c G g s acts deps) : Reach c G g s := by
  induction h with
  | init hg => exact .init hg
  | step _ hop he ih => exact .step ih hop he

theorem Reach.hist {c : Cfg} {G : St → Op → Prop} {g s : St} (h : Reach c G g s) : ∃ acts deps, Hist c G g s acts deps := by
  induction h with
  | init hg => exact ⟨[], [], .init hg⟩
  | step _ hop he ih =>
    obtain ⟨acts, deps, ih⟩ := ih
    exact ⟨_, _, .step ih hop he⟩

theorem Hist.log {c : Cfg} {G : St → Op → Prop} {g s : St} {acts : List Act} {deps : List Erc20Peg.Dep} (hc : CfgOk c)
    (h : Hist c G g s acts deps) : (s.log.map Prod.snd).Sublist acts := by
  induction h with
  | init hg => rw [hg.log]; exact List.Sublist.refl _
  | step _ _ he ih =>
    obtain ⟨new, e, hs⟩ := step_new hc he
    rw [e, List.map_append]
    exact ih.append hs

theorem step_accepted {c : Cfg} {s s' : St} {op : Op} (hc : CfgOk c) (h : Inv c s) (hop : Env c s op)
    (he : step c s op = .ok s') : ∃ new, s'.peg.accepted = s.peg.accepted ++ new ∧ new.Sublist (received c s op) := by
  have hs := (step_inv hc h hop he).2
  have same : s'.peg = s.peg → ∃ new, s'.peg.accepted = s.peg.accepted ++ new ∧ new.Sublist (received c s op) :=
    fun e => ⟨[], by rw [e]; simp, List.nil_sublist _⟩
  cases op with
  | peg o => exact ⟨[], by rw [peg_accepted hop hs]; simp, List.nil_sublist _⟩
  | event src dst data =>
    rcases (route_inv hc h hop.1 he).2 with e | ⟨d, hp, hd, hk⟩
    · exact same e
    · obtain ⟨_, _, t3, t4⟩ := deposit_typed h.peg (decodeErc20_token hd) hk
      refine ⟨[d], t3, ?_⟩
      simp only [received]
      rw [if_pos ⟨hp, t4⟩, hd]
      exact List.Sublist.refl _
  | ping who dest => exact same hs
  | nftWithdraw who colls serials dest => exact same hs
  | nftReclaim who b dest => exact same hs
  | nftPallet o => exact same hs
  | setNftContract a => exact same hs
  | setContract a => exact same hs
  | setPaused b => exact same hs
  | handover keys => exact same hs
  | finalise => exact same hs
  | drain i => exact same hs

/-- Accepted deposits were announced. -/
theorem Hist.accepted {c : Cfg} {G : St → Op → Prop} {g s : St} {acts : List Act} {deps : List Erc20Peg.Dep} (hc : CfgOk c)
    (hG : ∀ s op, G s op → Env c s op) (h : Hist c G g s acts deps) : s.peg.accepted.Sublist deps := by
  induction h with
  | init hg => rw [hg.peg.accepted]
  | step k hop he ih =>
    obtain ⟨new, e, hs⟩ := step_accepted hc (k.reach.inv hc hG) (hG _ _ hop) he
    rw [e]
    exact ih.append hs

/-- The ERC-20 peg in a history is the peg of `Verif.Erc20Peg`. -/
theorem Reach.pegReach {c : Cfg} {g s : St} (hc : CfgOk c) (h : Reach c (Money c) g s) :
    Erc20Peg.Reach c.pegCfg (Erc20Peg.Env c.pegCfg) g.peg s.peg := by
  induction h with
  | init hg => exact .init hg.peg
  | @step s s' op k hop he ih =>
    have hs := (step_inv hc (k.inv hc (fun _ _ x => x.1)) hop.1 he).2
    have same : s'.peg = s.peg → Erc20Peg.Reach c.pegCfg (Erc20Peg.Env c.pegCfg) g.peg s'.peg := fun e => by
      rw [e]
      exact ih
    cases op with
    | peg o => exact .step ih hop.2 hs
    | event src dst data =>
      rcases hs with e | ⟨d, hd, hk⟩
      · exact same e
      · exact .step ih (hop.2 d hd) hk
    | ping who dest => exact same hs
    | nftWithdraw who colls serials dest => exact same hs
    | nftReclaim who b dest => exact same hs
    | nftPallet o => exact same hs
    | setNftContract a => exact same hs
    | setContract a => exact same hs
    | setPaused b => exact same hs
    | handover keys => exact same hs
    | finalise => exact same hs
    | drain i => exact same hs

/-! ## Packages -/

theorem sent_fits {c : Cfg} {s : St} (hc : CfgOk c) (h : Good c s) (ht : s.taken ≤ U64) {r : Req} (hr : r ∈ s.sent) :
    ReqFits r := by
  have hm : r ∈ s.sent ++ s.pending := List.mem_append_left _ hr
  have hk : key r ∈ s.log.map (keyOf c) := (h.perm ht).subset (List.mem_map_of_mem hm)
  obtain ⟨p, hp, e⟩ := List.mem_map.mp hk
  simp only [keyOf, key, Prod.mk.injEq] at e
  obtain ⟨_, e2, e3, e4⟩ := e
  obtain ⟨f1, f2, f3⟩ := h.acts p hp
  refine ⟨?_, ?_, by rw [← e4]; exact f3, h.sets r hm, lt_of_lt_of_le (h.id_lt ht hm) ht⟩
  · rw [← e2]
    cases ha : p.2 with
    | erc20 d w => exact hc.peg
    | nft m => exact hc.nftPeg
    | ping x y z => rw [ha] at f1; exact f1.1
    | pong x y z => rw [ha] at f1; exact f1.1
    | handover x y z => exact hc.bridge
  · rw [← e3]
    cases ha : p.2 with
    | erc20 d w => rw [ha] at f1; exact f1.1
    | nft m => rw [ha] at f1; exact f1.contract
    | ping x y z => rw [ha] at f1; exact f1.2.1
    | pong x y z => rw [ha] at f1; exact f1.2.1
    | handover x y z => rw [ha] at f1; exact f1.1

theorem Package.mem {keccak : List Byte → List Byte} {c : Cfg} {s : St} {p : Req} (hc : CfgOk c) (h : Good c s)
    (ht : s.taken ≤ U64) (hp : Package keccak s p) : p ∈ s.sent := by
  obtain ⟨r, hr, e⟩ := List.mem_map.mp hp.signed
  by_cases he : r.encode = p.encode
  · rw [← encode_inj (sent_fits hc h ht hr) hp.fits he]
    exact hr
  · exact absurd ⟨he, e⟩ (hp.clean r hr)

/-- A package is recorded. -/
theorem Package.act {keccak : List Byte → List Byte} {c : Cfg} {s : St} {p : Req} (hc : CfgOk c) (h : Good c s)
    (ht : s.taken ≤ U64) (hp : Package keccak s p) : ∃ a, (p.id, a) ∈ s.log ∧ a.fits ∧ a.own c ∧ p.source = a.source c ∧
      p.destination = a.dest ∧ p.message = a.message c := by
  have hk : key p ∈ s.log.map (keyOf c) :=
    (h.perm ht).subset (List.mem_map_of_mem (List.mem_append_left _ (hp.mem hc h ht)))
  obtain ⟨q, hq, e⟩ := List.mem_map.mp hk
  simp only [keyOf, key, Prod.mk.injEq] at e
  obtain ⟨e1, e2, e3, e4⟩ := e
  obtain ⟨f1, f2, _⟩ := h.acts q hq
  refine ⟨q.2, ?_, f1, f2, e2.symm, e3.symm, e4.symm⟩
  rw [← e1]
  exact hq

theorem subperm_map {α β : Type} (f : α → β) {l l' : List α} (h : l.Subperm l') : (l.map f).Subperm (l'.map f) := by
  obtain ⟨m, hp, hs⟩ := h
  exact ⟨m.map f, hp.map f, hs.map f⟩

theorem subperm_filterMap {α β : Type} (f : α → Option β) {l l' : List α} (h : l.Subperm l') :
    (l.filterMap f).Subperm (l'.filterMap f) := by
  obtain ⟨m, hp, hs⟩ := h
  exact ⟨m.filterMap f, hp.filterMap f, hs.filterMap f⟩

theorem subperm_sum {l l' : List Nat} (h : l.Subperm l') : l.sum ≤ l'.sum := by
  obtain ⟨m, hp, hs⟩ := h
  rw [← hp.sum_eq]
  exact hs.sum_le_sum (fun _ _ => Nat.zero_le _)

/-- Acts recorded under different numbers are different entries. -/
theorem subperm_log {α : Type} {s : St} {acts : List Act} (hl : (s.log.map Prod.snd).Sublist acts) (ps : List α)
    (id : α → Nat) (act : α → Act) (hn : (ps.map id).Nodup) (hm : ∀ p ∈ ps, (id p, act p) ∈ s.log) :
    (ps.map (fun p => (id p, act p))).Subperm s.log ∧ (ps.map act).Subperm acts := by
  have h1 : (ps.map (fun p => (id p, act p))).Subperm s.log := by
    refine List.subperm_of_subset ?_ ?_
    · refine List.Nodup.of_map Prod.fst ?_
      rw [List.map_map]
      exact hn
    · intro x hx
      obtain ⟨p, hp, rfl⟩ := List.mem_map.mp hx
      exact hm p hp
  refine ⟨h1, ?_⟩
  have h2 := subperm_map Prod.snd h1
  rw [List.map_map] at h2
  exact h2.trans hl.subperm

end Verif.Outbound
