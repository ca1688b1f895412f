import Verif.Door.Props

/-!
# C262: what the events tell of the signers of the door accounts

`XrplDoorSignersSet`, `XrplAuthoritySetChange` and `XrplAuthoritySetChangeRequestFailed` (/repo/pallet/ethy/src/lib.rs). The second names
requests by their proof ids; as in the model, a request is identified with its content.
-/

namespace Verif.Door

open Verif.Xrpl (Addr Msg Body)

/-- Events of /repo/pallet/ethy/src/lib.rs that concern the signers of the door accounts. -/
inductive Said where
  /-- `XrplDoorSignersSet` -/
  | signers (l : List (Key × Bool))
  /-- `XrplAuthoritySetChange` -/
  | asked (rs : List Req)
  /-- `XrplAuthoritySetChangeRequestFailed` -/
  | failed
deriving DecidableEq

/-- impls.rs:860-898: the event of asking XRPL for the next signers. -/
def askTold (c : Cfg) (s : St) : List Said :=
  if (signersOf c s s.next).isPerm s.xrpl then []
  else if (submitLists c s (signersOf c s s.next)).2 = true then
    [.asked ((submitLists c s (signersOf c s s.next)).1.requests.drop s.requests.length)]
  else [.failed]

/-- The events of an operation that succeeds: lib.rs:786-804 and impls.rs:814-905, the latter also at the end of a session (1053-1085). -/
def evs (c : Cfg) (s : St) : Op → List Said
  | .whitelist l => [.signers l]
  | .change _ => askTold c s
  | .rotate _ _ _ => if s.final = true ∧ s.changed = false then askTold c s else []
  | _ => []

/-- A history and its events, oldest first. -/
inductive Tells (c : Cfg) (G : St → Op → Prop) (g : St) : St → List Said → Prop where
  | init : Genesis c g → Tells c G g g []
  | step {s s' : St} {op : Op} {l : List Said} : Tells c G g s l → G s op → step c s op = .ok s' → Tells c G g s' (l ++ evs c s op)

/-! ## The reader -/

/-- Who is allowed, after an event. -/
def hear (f : Key → Bool) : Said → Key → Bool
  | .signers l => l.foldl (fun f (e : Key × Bool) => upd f e.1 e.2) f
  | _ => f

/-- The requests an event tells of. -/
def told : Said → List Req
  | .asked rs => rs
  | _ => []

/-- A request to change a signer list. -/
def isList (r : Req) : Bool := decide (r.msg.body = .signers)

/-- A pair of requests: the same signers for both door accounts, of whom all but one have to sign. -/
def Pair (rs : List Req) : Prop := ∃ r1 r2, rs = [r1, r2] ∧ r1.msg.door = .main ∧ r2.msg.door = .nft ∧ r1.msg.body = .signers ∧
  r2.msg.body = .signers ∧ r1.list = r2.list ∧ r1.quorum = r1.list.length - 1 ∧ r2.quorum = r2.list.length - 1

/-! ## Proofs -/

theorem signersOne_door {s s' : Xrpl.St} {d : Xrpl.Door} (h : Xrpl.signersOne s d = .ok s') :
    ∃ m, s'.outbox = s.outbox ++ [m] ∧ m.body = .signers ∧ m.door = d := by
  obtain ⟨_, m, ho, hb, _⟩ := signersOne_ok h
  refine ⟨m, ho, hb, ?_⟩
  obtain ⟨_, _, _, _, e0⟩ := Xrpl.signersOne_frame h
  simp only [Xrpl.signersOne, bind_ok, okOr_ok, pure_ok] at h
  obtain ⟨a, ha, t, ht, rfl⟩ := h
  have e : [m] = [_] := List.append_inj_right' (ho.symm.trans rfl) rfl
  cases e
  rfl

theorem submit_pair (c : Cfg) (s : St) (keys : List Key) : ∃ x' l, (submitLists c s keys).1 = plus s x' l ∧ (∀ r ∈ l, isList r = true) ∧
    ((submitLists c s keys).2 = true → Pair l) := by
  unfold submitLists
  split
  · exact ⟨s.x, [], by simp [plus], by simp, by simp⟩
  · rename_i x1 h1
    obtain ⟨m1, o1, b1, d1⟩ := signersOne_door h1
    split
    · refine ⟨x1, [⟨m1, keys.map c.addr, keys.length - 1⟩], post_eq o1, ?_, by simp⟩
      intro r hr
      cases List.mem_singleton.mp hr
      exact decide_eq_true b1
    · rename_i x2 h2
      obtain ⟨m2, o2, b2, d2⟩ := signersOne_door h2
      refine ⟨x2, [⟨m1, keys.map c.addr, keys.length - 1⟩, ⟨m2, keys.map c.addr, keys.length - 1⟩], ?_, ?_, ?_⟩
      · dsimp only
        rw [post_eq o1, post_eq (s := plus s x1 _) o2, plus_plus]
        rfl
      · intro r hr
        simp only [List.mem_cons, List.not_mem_nil, or_false] at hr
        rcases hr with rfl | rfl
        · exact decide_eq_true b1
        · exact decide_eq_true b2
      · exact fun _ => ⟨_, _, rfl, d1, d2, b1, b2, rfl, by simp, by simp⟩

/-- What asking adds and what is told of it. -/
theorem ask_spec (c : Cfg) (s : St) : ∃ x' l, askLists c s = plus s x' l ∧ (∀ r ∈ l, isList r = true) ∧
    (Said.failed ∉ askTold c s → (askTold c s).flatMap told = l) ∧ ∀ rs, Said.asked rs ∈ askTold c s → rs = l ∧ Pair rs := by
  unfold askLists askTold
  split
  · exact ⟨s.x, [], by simp [plus], by simp, by simp, by simp⟩
  · obtain ⟨x', l, h1, h2, h3⟩ := submit_pair c s (signersOf c s s.next)
    have hd : (submitLists c s (signersOf c s s.next)).1.requests.drop s.requests.length = l := by
      rw [h1]
      exact List.drop_left
    refine ⟨x', l, h1, h2, ?_, ?_⟩
    · split
      · intro _
        rw [hd]
        simp [told]
      · intro h
        exact absurd List.mem_cons_self h
    · intro rs h
      split at h
      · rename_i ht
        rw [hd] at h
        cases List.mem_singleton.mp h
        exact ⟨rfl, h3 ht⟩
      · simp at h

theorem filter_all {l : List Req} (h : ∀ r ∈ l, isList r = true) : l.filter isList = l := List.filter_eq_self.mpr h

/-- What an operation adds and what is told of it. -/
theorem step_spec {c : Cfg} {s s' : St} {op : Op} (h : step c s op = .ok s') :
    (evs c s op).foldl hear s.allowed = s'.allowed ∧ ∃ new, s'.requests = s.requests ++ new ∧
      (Said.failed ∉ evs c s op → (evs c s op).flatMap told = new.filter isList) ∧
      ∀ rs, Said.asked rs ∈ evs c s op → rs = new ∧ Pair rs := by
  have quiet : ∀ {t : St}, t.allowed = s.allowed → t.requests = s.requests → ([] : List Said).foldl hear s.allowed = t.allowed ∧
      ∃ new, t.requests = s.requests ++ new ∧ (Said.failed ∉ ([] : List Said) → ([] : List Said).flatMap told = new.filter isList) ∧
      ∀ rs, Said.asked rs ∈ ([] : List Said) → rs = new ∧ Pair rs :=
    fun h1 h2 => ⟨h1.symm, [], by simp [h2], by simp, by simp⟩
  have ask : ∀ {t : St}, t.allowed = (askLists c s).allowed → t.requests = (askLists c s).requests →
      (askTold c s).foldl hear s.allowed = t.allowed ∧ ∃ new, t.requests = s.requests ++ new ∧
      (Said.failed ∉ askTold c s → (askTold c s).flatMap told = new.filter isList) ∧
      ∀ rs, Said.asked rs ∈ askTold c s → rs = new ∧ Pair rs := by
    intro t h1 h2
    obtain ⟨x', l, e, hl, ha, hb⟩ := ask_spec c s
    rw [e] at h1 h2
    refine ⟨?_, l, h2, fun hf => (ha hf).trans (filter_all hl).symm, hb⟩
    rw [h1]
    unfold askTold
    split
    · rfl
    · split <;> rfl
  cases op with
  | x op =>
    simp only [step, bind_ok, ensure_ok, pure_ok] at h
    obtain ⟨_, hn, x', hx, rfl⟩ := h
    obtain ⟨⟨new, ho, hb⟩, _⟩ := xstep_grow hn hx
    rw [post_eq ho]
    refine ⟨rfl, _, rfl, fun _ => ?_, fun rs hr => by cases hr⟩
    show [] = _
    symm
    rw [List.filter_eq_nil_iff]
    intro r hr
    obtain ⟨m, hm, rfl⟩ := List.mem_map.mp hr
    unfold isList
    rw [decide_eq_true_eq]
    exact hb m hm
  | whitelist l =>
    simp only [step, whitelist, bind_ok, ensure_ok, pure_ok] at h
    obtain ⟨_, _, rfl⟩ := h
    refine ⟨rfl, [], by simp, fun _ => rfl, fun rs hr => ?_⟩
    simp [evs] at hr
  | pause b =>
    cases h
    exact quiet rfl rfl
  | change eth =>
    simp only [step, bind_ok, ensure_ok, pure_ok] at h
    obtain ⟨_, _, rfl⟩ := h
    exact ask rfl rfl
  | rotate queued final eth =>
    cases h
    simp only [evs]
    by_cases hf : s.final = true
    · by_cases hc : s.changed = true
      · rw [if_neg (by rw [hc]; simp)]
        refine quiet ?_ ?_ <;>
        · unfold rotate ending
          rw [if_pos hf, if_pos hc]
          rfl
      · rw [if_pos ⟨hf, Bool.eq_false_iff.mpr hc⟩]
        refine ask ?_ ?_ <;>
        · unfold rotate ending
          rw [if_pos hf, if_neg hc]
          rfl
    · rw [if_neg (fun q => hf q.1)]
      refine quiet ?_ ?_ <;>
      · unfold rotate ending
        rw [if_neg hf]
  | finalise =>
    simp only [step, bind_ok, okOr_ok, pure_ok] at h
    obtain ⟨_, _, rfl⟩ := h
    exact quiet rfl rfl
  | release r =>
    simp only [step, release, bind_ok, ensure_ok, pure_ok] at h
    obtain ⟨_, _, _, _, rfl⟩ := h
    exact quiet rfl rfl
  | relay r who =>
    simp only [step, bind_ok, pure_ok] at h
    obtain ⟨_, _, rfl⟩ := h
    exact quiet rfl rfl
  | ticket a t =>
    simp only [step, bind_ok, pure_ok] at h
    obtain ⟨_, _, rfl⟩ := h
    exact quiet rfl rfl

/-! ## The property -/

/-- **C262 (allowed)** — the events tell exactly which keys may sign for XRPL. -/
theorem C262_allowed {c : Cfg} {G : St → Op → Prop} {g s : St} {l : List Said} (h : Tells c G g s l) :
    l.foldl hear g.allowed = s.allowed := by
  induction h with
  | init _ => rfl
  | step _ _ he ih =>
    rw [List.foldl_append, ih]
    exact (step_spec he).1

/-- **C262 (asked)** — an announced change of signers was asked for: the same list for both door accounts. -/
theorem C262_asked {c : Cfg} {G : St → Op → Prop} {g s : St} {l : List Said} (h : Tells c G g s l) {rs : List Req}
    (hr : Said.asked rs ∈ l) : Pair rs ∧ ∀ r ∈ rs, r ∈ s.requests := by
  induction h with
  | init _ => cases hr
  | step _ _ he ih =>
    obtain ⟨_, new, hn, _, ha⟩ := step_spec he
    rw [hn]
    rcases List.mem_append.mp hr with h1 | h1
    · exact ⟨(ih h1).1, fun r q => List.mem_append_left _ ((ih h1).2 r q)⟩
    · obtain ⟨rfl, hp⟩ := ha rs h1
      exact ⟨hp, fun r q => List.mem_append_right _ q⟩

/-- **C262 (all lists), partial** — if no request was told to have failed, the requests to change signer lists are those told, in order.
Missing: what a request that fails leaves behind. -/
theorem C262_all_partial {c : Cfg} {G : St → Op → Prop} {g s : St} {l : List Said} (h : Tells c G g s l) (hf : Said.failed ∉ l) :
    s.requests.filter isList = l.flatMap told := by
  induction h with
  | init hg =>
    rw [hg.requests]
    rfl
  | step _ _ he ih =>
    obtain ⟨_, new, hn, ha, _⟩ := step_spec he
    rw [hn, List.filter_append, List.flatMap_append, ih (fun q => hf (List.mem_append_left _ q)),
      ha (fun q => hf (List.mem_append_right _ q))]

/-- Run operations and collect the events of those that succeed. -/
def story (c : Cfg) (s : St) : List Op → List Said
  | [] => []
  | op :: ops => (match step c s op with
    | .ok _ => evs c s op
    | .error _ => []) ++ story c (after c s op) ops

theorem exec_tells {c : Cfg} {G : St → Op → Prop} {g : St} : ∀ (ops : List Op) {s : St} {l : List Said}, Tells c G g s l →
    Along c G s ops → Tells c G g (exec c s ops) (l ++ story c s ops)
  | [], _, _, h, _ => by
    unfold story exec
    rw [List.append_nil]
    exact h
  | op :: ops, s, l, h, hg => by
    unfold exec story
    rw [← List.append_assoc]
    refine exec_tells ops ?_ hg.2
    unfold after
    cases he : step c s op with
    | ok s' => exact .step h hg.1 he
    | error _ =>
      rw [List.append_nil]
      exact h

/-- **C262 is false** of failures: only a failed request is told, yet one door account was asked to change its list, and changed it. -/
theorem C262_failed_refuted : ∃ s, Tells c0 (Fair c0 none_) g1 s [.failed] ∧
    s.requests.filter isList = [setList .main 0 500 [1004, 1005, 1006]] ∧
    (s.xl.acct 500).list = [1004, 1005, 1006] ∧ (s.xl.acct 600).list = [1001, 1002, 1003] := by
  have h := exec_tells (G := Fair c0 none_) noTickets (.init g1_genesis) (by decide +kernel)
  rw [show [] ++ story c0 g1 noTickets = [.failed] by decide +kernel] at h
  exact ⟨_, h, by decide +kernel, by decide +kernel, by decide +kernel⟩

/-- A change of signers that is asked for, and the same with its end. -/
def half : List Op := [.rotate [4, 5, 6] true true, .change true]

/-- **C262 is false** of who signs now: when the signers change there is no event. -/
theorem C262_now_refuted : ∃ (s s' : St) (l : List Said), Tells c0 (Fair c0 none_) g1 s l ∧ Tells c0 (Fair c0 none_) g1 s' l ∧
    s.active = [1, 2, 3] ∧ s'.active = [4, 5, 6] := by
  have h1 := exec_tells (G := Fair c0 none_) half (.init g1_genesis) (by decide +kernel)
  have h2 := exec_tells (G := Fair c0 none_) (half ++ [.rotate [4, 5, 6] false true]) (.init g1_genesis) (by decide +kernel)
  rw [show [] ++ story c0 g1 (half ++ [.rotate [4, 5, 6] false true]) = [] ++ story c0 g1 half by decide +kernel] at h2
  exact ⟨_, _, _, h1, h2, by decide +kernel, by decide +kernel⟩

/-! ## Cases -/

/-- Root forbids two keys, of which one is a validator next; the signers change; both lists are told. -/
def tale : List Op := [.whitelist [(7, false), (9, false)], .rotate [4, 5, 6, 7] true true, .change true]

theorem tale_tells : Tells c0 (Fair c0 none_) g1 (exec c0 g1 tale)
    [.signers [(7, false), (9, false)], .asked [setList .main 0 500 [1004, 1005, 1006], setList .nft 0 600 [1004, 1005, 1006]]] := by
  have h := exec_tells (G := Fair c0 none_) tale (.init g1_genesis) (by decide +kernel)
  rw [show [] ++ story c0 g1 tale = [.signers [(7, false), (9, false)], .asked [setList .main 0 500 [1004, 1005, 1006],
    setList .nft 0 600 [1004, 1005, 1006]]] by decide +kernel] at h
  exact h

example : (exec c0 g1 tale).allowed 7 = false ∧ (exec c0 g1 tale).allowed 8 = true := by decide +kernel
example := C262_allowed tale_tells
example := C262_asked tale_tells (List.mem_cons_of_mem _ List.mem_cons_self)
example := C262_all_partial tale_tells (by decide)

end Verif.Door
