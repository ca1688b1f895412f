import Verif.EthCall.Model

/-!
# Properties of the Ethereum call oracle (C68, C69)
-/

namespace Verif.EthCall

/-- Number of votes for a result. -/
def votesFor (l : List (Key × Nat)) (r : Nat) : Nat := (l.filter (fun kv => kv.2 = r)).length

/-! ## The tally -/

/-- The aggregated counts are the numbers of votes. -/
structure Tally (votes : List (Key × Nat)) (agg : List (Nat × Nat)) : Prop where
  sorted : agg.Pairwise (fun p q => p.1 < q.1)
  count : ∀ p ∈ agg, p.2 = votesFor votes p.1
  all : ∀ kv ∈ votes, ∃ n, (kv.2, n) ∈ agg
  tot : total agg = votes.length

theorem votesFor_append (l : List (Key × Nat)) (k : Key) (r q : Nat) :
    votesFor (l ++ [(k, r)]) q = votesFor l q + if r = q then 1 else 0 := by
  unfold votesFor
  rw [List.filter_append, List.length_append]
  by_cases h : r = q <;> simp [h]

theorem votesFor_zero {l : List (Key × Nat)} {r : Nat} (h : ∀ kv ∈ l, kv.2 ≠ r) : votesFor l r = 0 := by
  unfold votesFor
  rw [List.length_eq_zero_iff, List.filter_eq_nil_iff]
  simpa using h

theorem bump_total (r : Nat) : ∀ l : List (Nat × Nat), total (bump r l) = total l + 1
  | [] => rfl
  | (q, n) :: l => by
    have ih := bump_total r l
    unfold total at ih ⊢
    unfold bump
    split
    · simp; omega
    · split
      · simp; omega
      · simp [ih]; omega

theorem mem_bump {r : Nat} {p : Nat × Nat} : ∀ {l : List (Nat × Nat)}, l.Pairwise (fun p q => p.1 < q.1) →
    (p ∈ bump r l ↔ (p ∈ l ∧ p.1 ≠ r) ∨ (p.1 = r ∧ ((∃ n, (r, n) ∈ l ∧ p.2 = n + 1) ∨
      ((∀ q ∈ l, q.1 ≠ r) ∧ p.2 = 1)))) := by
  intro l
  obtain ⟨pr, pn⟩ := p
  induction l with
  | nil => intro _; simp [bump]
  | cons a l ih =>
    obtain ⟨q, n⟩ := a
    intro hs
    obtain ⟨hlt, hs'⟩ := List.pairwise_cons.mp hs
    have ih := ih hs'
    unfold bump
    split
    · rename_i hrq
      have hno : ∀ m, (r, m) ∉ (q, n) :: l := by
        intro m hm
        rcases List.mem_cons.mp hm with e | hm
        · cases e; omega
        · have := hlt _ hm; simp at this; omega
      have hno' : ∀ x ∈ (q, n) :: l, x.1 ≠ r := by
        rintro ⟨a, b⟩ hx rfl; exact hno _ hx
      constructor
      · intro h
        rcases List.mem_cons.mp h with e | h
        · cases e; right; exact ⟨rfl, Or.inr ⟨hno', rfl⟩⟩
        · left; exact ⟨h, hno' _ h⟩
      · rintro (⟨h, _⟩ | ⟨e, ⟨m, hm, _⟩ | ⟨_, e2⟩⟩)
        · exact List.mem_cons_of_mem _ h
        · exact absurd hm (hno m)
        · simp only at e e2; subst e; subst e2; exact List.mem_cons_self
    · split
      · rename_i hrq; subst hrq
        have hl : ∀ x ∈ l, x.1 ≠ r := by
          intro x hx e; have := hlt x hx; simp at this; omega
        constructor
        · intro h
          rcases List.mem_cons.mp h with e | h
          · cases e; right; exact ⟨rfl, Or.inl ⟨n, List.mem_cons_self, rfl⟩⟩
          · left; exact ⟨List.mem_cons_of_mem _ h, hl _ h⟩
        · rintro (⟨h, hne⟩ | ⟨e, ⟨m, hm, e2⟩ | ⟨hall, _⟩⟩)
          · rcases List.mem_cons.mp h with e | h
            · cases e; exact absurd rfl hne
            · exact List.mem_cons_of_mem _ h
          · simp only at e e2; subst e; subst e2
            rcases List.mem_cons.mp hm with e3 | hm
            · cases e3; exact List.mem_cons_self
            · exact absurd rfl (hl _ hm)
          · exact absurd rfl (hall _ List.mem_cons_self)
      · rename_i hn1 hn2
        rw [List.mem_cons, ih]
        constructor
        · rintro (e | ⟨h, hne⟩ | ⟨e, ⟨m, hm, e2⟩ | ⟨hall, e2⟩⟩)
          · cases e; left; exact ⟨List.mem_cons_self, fun e => hn2 e.symm⟩
          · left; exact ⟨List.mem_cons_of_mem _ h, hne⟩
          · right; exact ⟨e, Or.inl ⟨m, List.mem_cons_of_mem _ hm, e2⟩⟩
          · right; refine ⟨e, Or.inr ⟨?_, e2⟩⟩
            intro x hx
            rcases List.mem_cons.mp hx with e3 | hx
            · subst e3; exact fun e => hn2 e.symm
            · exact hall x hx
        · rintro (⟨h, hne⟩ | ⟨e, ⟨m, hm, e2⟩ | ⟨hall, e2⟩⟩)
          · rcases List.mem_cons.mp h with e | h
            · exact Or.inl e
            · exact Or.inr (Or.inl ⟨h, hne⟩)
          · rcases List.mem_cons.mp hm with e3 | hm
            · cases e3; exact absurd rfl hn2
            · exact Or.inr (Or.inr ⟨e, Or.inl ⟨m, hm, e2⟩⟩)
          · exact Or.inr (Or.inr ⟨e, Or.inr ⟨fun x hx => hall x (List.mem_cons_of_mem _ hx), e2⟩⟩)

theorem bump_sorted {r : Nat} : ∀ {l : List (Nat × Nat)}, l.Pairwise (fun p q => p.1 < q.1) →
    (bump r l).Pairwise (fun p q => p.1 < q.1)
  | [], _ => by simp [bump]
  | (q, n) :: l, hs => by
    obtain ⟨hlt, hs'⟩ := List.pairwise_cons.mp hs
    unfold bump
    split
    · rename_i h
      refine List.pairwise_cons.mpr ⟨?_, hs⟩
      intro x hx
      rcases List.mem_cons.mp hx with e | hx
      · subst e; exact h
      · have := hlt x hx; simp only at this ⊢; omega
    · split
      · exact List.pairwise_cons.mpr ⟨hlt, hs'⟩
      · rename_i h1 h2
        refine List.pairwise_cons.mpr ⟨?_, bump_sorted hs'⟩
        intro x hx
        rcases (mem_bump hs').mp hx with ⟨hx, _⟩ | ⟨e, _⟩
        · exact hlt x hx
        · simp only; rw [e]; omega

theorem Tally.bump {votes : List (Key × Nat)} {agg : List (Nat × Nat)} (h : Tally votes agg) (k : Key) (r : Nat) :
    Tally (votes ++ [(k, r)]) (bump r agg) := by
  refine ⟨bump_sorted h.sorted, ?_, ?_, ?_⟩
  · intro p hp
    rw [votesFor_append]
    rcases (mem_bump h.sorted).mp hp with ⟨hp, hne⟩ | ⟨e, ⟨n, hn, e2⟩ | ⟨hall, e2⟩⟩
    · rw [if_neg (Ne.symm hne), h.count p hp]; rfl
    · have := h.count _ hn
      simp only at this
      rw [e, if_pos rfl, e2, this]
    · have : votesFor votes p.1 = 0 := by
        apply votesFor_zero
        intro kv hkv e3
        obtain ⟨n, hn⟩ := h.all kv hkv
        exact hall _ hn (by simp only; rw [e3, e])
      rw [this, e, if_pos rfl, e2]
  · intro kv hkv
    by_cases hr : kv.2 = r
    · by_cases hex : ∃ n, (r, n) ∈ agg
      · obtain ⟨n, hn⟩ := hex
        exact ⟨n + 1, (mem_bump h.sorted).mpr (Or.inr ⟨hr, Or.inl ⟨n, hn, rfl⟩⟩)⟩
      · refine ⟨1, (mem_bump h.sorted).mpr (Or.inr ⟨hr, Or.inr ⟨?_, rfl⟩⟩)⟩
        rintro ⟨a, b⟩ hq rfl
        exact hex ⟨b, hq⟩
    · rcases List.mem_append.mp hkv with hkv | hkv
      · obtain ⟨n, hn⟩ := h.all kv hkv
        exact ⟨n, (mem_bump h.sorted).mpr (Or.inl ⟨hn, hr⟩)⟩
      · simp only [List.mem_singleton] at hkv; subst hkv; exact absurd rfl hr
  · rw [bump_total, h.tot, List.length_append]; rfl

/-! ## The invariant -/

structure Inv (s : St) : Prop where
  tally : ∀ id, Tally (s.votes id) (s.agg id)
  keys : ∀ id, ((s.votes id).map Prod.fst).Nodup
  closed : ∀ id, s.info id = false → s.votes id = []
  lt : ∀ id, s.info id = true → id < s.nextId
  ans : ∀ id, id ∈ s.answers.map Prod.fst → s.info id = false ∧ id < s.nextId
  once : (s.answers.map Prod.fst).Nodup
  req : ∀ id, id ∈ s.requests ↔ s.info id = true
  reqNodup : s.requests.Nodup

theorem finish_ok {s s' : St} {id : Nat} {r : Nat} (h : finish s id r = .ok s') :
    (s.votes id).length ≤ s.notaryKeys.length ∧
    s' = { s with votes := upd s.votes id [], agg := upd s.agg id [], info := upd s.info id false,
                  requests := s.requests.erase id, answers := (id, r) :: s.answers } := by
  simp only [finish, bind_ok, ensure_ok, pure_ok] at h
  obtain ⟨_, h, rfl⟩ := h
  exact ⟨h, rfl⟩

/-- The state with the vote recorded. -/
def withVote (s : St) (id : Nat) (key : Key) (r : Nat) : St :=
  { s with votes := upd s.votes id (s.votes id ++ [(key, r)]) }

theorem notarize_ok {c : Cfg} {s s' : St} {idx id : Nat} {r : Nat} (h : notarize c s idx id r = .ok s') :
    ∃ key, s.notaryKeys[idx]? = some key ∧ (∀ kv ∈ s.votes id, kv.1 ≠ key) ∧ s.info id = true ∧
    ((∃ w, winner c s.valCount (bump r (s.agg id)) = some w ∧ finish (withVote s id key r) id w = .ok s') ∨
     (winner c s.valCount (bump r (s.agg id)) = none ∧
       (total (bump r (s.agg id)) = s.valCount ∨ canReach c s.valCount (bump r (s.agg id)) = false) ∧
       finish (withVote s id key r) id r = .ok s') ∨
     (winner c s.valCount (bump r (s.agg id)) = none ∧ total (bump r (s.agg id)) ≠ s.valCount ∧
       canReach c s.valCount (bump r (s.agg id)) = true ∧
       s' = { withVote s id key r with agg := upd s.agg id (bump r (s.agg id)) })) := by
  simp only [notarize, bind_ok, ensure_ok, okOr_ok] at h
  obtain ⟨key, hk, _, hd, _, hi, h⟩ := h
  refine ⟨key, hk, hd, hi, ?_⟩
  unfold decideCall at h
  dsimp only at h
  split at h
  · rename_i w hw
    exact Or.inl ⟨w, hw, h⟩
  · rename_i hw
    split at h
    · rename_i hc; exact Or.inr (Or.inl ⟨hw, hc, h⟩)
    · rename_i hc
      simp only [not_or, Bool.not_eq_false] at hc
      cases h
      exact Or.inr (Or.inr ⟨hw, hc.1, hc.2, rfl⟩)

theorem Inv.finish {s s' : St} {id : Nat} {r : Nat} (h : Inv s) (hi : s.info id = true) {v : List (Key × Nat)}
    (hf : finish { s with votes := upd s.votes id v } id r = .ok s') : Inv s' := by
  obtain ⟨_, rfl⟩ := finish_ok hf
  refine ⟨?_, ?_, ?_, ?_, ?_, ?_, ?_, ?_⟩
  · intro i
    dsimp only
    by_cases e : i = id
    · subst e; rw [upd_same, upd_same]
      exact ⟨by simp, by simp, by simp, rfl⟩
    · rw [upd_ne _ _ e, upd_ne _ _ e, upd_ne _ _ e]; exact h.tally i
  · intro i
    dsimp only
    by_cases e : i = id
    · subst e; rw [upd_same]; simp
    · rw [upd_ne _ _ e, upd_ne _ _ e]; exact h.keys i
  · intro i hi'
    dsimp only at hi' ⊢
    by_cases e : i = id
    · subst e; rw [upd_same]
    · rw [upd_ne _ _ e] at hi'; rw [upd_ne _ _ e, upd_ne _ _ e]; exact h.closed i hi'
  · intro i hi'
    dsimp only at hi' ⊢
    by_cases e : i = id
    · subst e; rw [upd_same] at hi'; cases hi'
    · rw [upd_ne _ _ e] at hi'; exact h.lt i hi'
  · intro i hi'
    dsimp only at hi' ⊢
    by_cases e : i = id
    · subst e; rw [upd_same]; exact ⟨rfl, h.lt i hi⟩
    · rw [upd_ne _ _ e]
      rw [List.map_cons, List.mem_cons] at hi'
      rcases hi' with e' | hi'
      · exact absurd e' e
      · exact h.ans i hi'
  · dsimp only
    rw [List.map_cons, List.nodup_cons]
    refine ⟨fun hm => ?_, h.once⟩
    have := (h.ans id hm).1
    rw [hi] at this; cases this
  · intro i
    dsimp only
    rw [List.Nodup.mem_erase_iff h.reqNodup]
    by_cases e : i = id
    · subst e; rw [upd_same]; simp
    · rw [upd_ne _ _ e, h.req i]; simp [e]
  · exact h.reqNodup.erase _

theorem Inv.step {c : Cfg} {s s' : St} {op : Op} (h : Inv s) (hs : EthCall.step c s op = .ok s') : Inv s' := by
  cases op with
  | request =>
    cases hs
    have hnew : s.info s.nextId = false := by
      by_contra hc
      exact absurd (h.lt s.nextId (by simpa using hc)) (lt_irrefl _)
    refine ⟨h.tally, h.keys, ?_, ?_, ?_, h.once, ?_, ?_⟩
    · intro i hi
      dsimp only [request] at hi ⊢
      by_cases e : i = s.nextId
      · subst e; rw [upd_same] at hi; cases hi
      · rw [upd_ne _ _ e] at hi; exact h.closed i hi
    · intro i hi
      dsimp only [request] at hi ⊢
      by_cases e : i = s.nextId
      · omega
      · rw [upd_ne _ _ e] at hi; have := h.lt i hi; omega
    · intro i hi
      obtain ⟨h1, h2⟩ := h.ans i hi
      dsimp only [request]
      have e : i ≠ s.nextId := by omega
      rw [upd_ne _ _ e]
      exact ⟨h1, by omega⟩
    · intro i
      dsimp only [request]
      rw [List.mem_append, List.mem_singleton, h.req i]
      by_cases e : i = s.nextId
      · subst e; rw [upd_same]; simp
      · rw [upd_ne _ _ e]; simp [e]
    · dsimp only [request]
      rw [List.nodup_append]
      refine ⟨h.reqNodup, by simp, ?_⟩
      intro a ha b hb e
      simp only [List.mem_singleton] at hb
      subst hb; subst e
      rw [h.req, hnew] at ha; cases ha
  | notarize idx id r =>
    obtain ⟨key, hk, hd, hi, ⟨w, _, hf⟩ | ⟨_, _, hf⟩ | ⟨_, _, _, rfl⟩⟩ := notarize_ok hs
    · exact h.finish hi hf
    · exact h.finish hi hf
    · refine ⟨?_, ?_, ?_, h.lt, h.ans, h.once, h.req, h.reqNodup⟩
      · intro i
        dsimp only [withVote]
        by_cases e : i = id
        · subst e; rw [upd_same, upd_same]; exact (h.tally i).bump key r
        · rw [upd_ne _ _ e, upd_ne _ _ e]; exact h.tally i
      · intro i
        dsimp only [withVote]
        by_cases e : i = id
        · subst e; rw [upd_same, List.map_append, List.nodup_append]
          refine ⟨h.keys i, by simp, ?_⟩
          intro a ha b hb e
          simp only [List.map_cons, List.map_nil, List.mem_singleton] at hb
          obtain ⟨kv, hkv, e2⟩ := List.mem_map.mp ha
          exact hd kv hkv (by rw [e2, e, hb])
        · rw [upd_ne _ _ e]; exact h.keys i
      · intro i hi'
        dsimp only [withVote] at hi' ⊢
        by_cases e : i = id
        · subst e; rw [hi] at hi'; cases hi'
        · rw [upd_ne _ _ e]; exact h.closed i hi'
  | setNotaries ks n => cases hs; exact ⟨h.tally, h.keys, h.closed, h.lt, h.ans, h.once, h.req, h.reqNodup⟩

theorem Reach.inv {c : Cfg} {s : St} (h : Reach c s) : Inv s := by
  induction h with
  | init g =>
    refine ⟨?_, ?_, fun i _ => g.votes i, ?_, ?_, ?_, ?_, ?_⟩
    · intro i; rw [g.votes, g.agg]; exact ⟨by simp, by simp, by simp, rfl⟩
    · intro i; rw [g.votes]; simp
    · intro i hi; rw [g.info] at hi; cases hi
    · rw [g.answers]; simp
    · rw [g.answers]; simp
    · rw [g.requests]; simp [g.info]
    · rw [g.requests]; simp
  | step _ hs ih => exact ih.step hs

/-! ## Demo -/

def cfg0 : Cfg := ⟨66⟩

/-- Four validators, nothing requested. -/
def g0 : St := ⟨0, fun _ => false, [], fun _ => [], fun _ => [], [11, 12, 13, 14], 4, []⟩

theorem genesis_g0 : Genesis g0 := ⟨fun _ => rfl, rfl, fun _ => rfl, fun _ => rfl, rfl⟩

/-- Request 0 is answered with 50 by three of four; request 1 gets four different results. -/
def demoOps : List Op :=
  [.request, .request, .notarize 0 0 50, .notarize 3 0 51, .notarize 1 0 50, .notarize 1 0 50, .notarize 2 0 50,
   .notarize 0 1 60, .notarize 1 1 61]

def demo : St := exec cfg0 g0 demoOps

theorem demo_reach : Reach cfg0 demo := exec_reach _ (.init genesis_g0)

/-! ## C68: one answer, and no endless request -/

/-- C68: no request is answered twice. -/
theorem C68_answered_once {c : Cfg} {s : St} (h : Reach c s) : (s.answers.map Prod.fst).Nodup := h.inv.once

/-- C68: an answered request is closed: no vote on it is accepted any more, and its id is not reused. -/
theorem C68_answer_final {c : Cfg} {s s' : St} (h : Reach c s) {id : Nat} (ha : id ∈ s.answers.map Prod.fst)
    (idx : Nat) (r : Nat) : notarize c s idx id r ≠ .ok s' ∧ s.nextId ≠ id := by
  obtain ⟨h1, h2⟩ := h.inv.ans id ha
  refine ⟨?_, by omega⟩
  intro e
  obtain ⟨_, _, _, hi, _⟩ := notarize_ok e
  rw [h1] at hi; cases hi

/-- C68: votes on a request come from different validators. -/
theorem C68_one_vote_each {c : Cfg} {s : St} (h : Reach c s) (id : Nat) :
    ((s.votes id).map Prod.fst).Nodup := h.inv.keys id

/-- C68: the vote with which as many votes are in as there are validators answers the request. -/
theorem C68_all_votes_answer {c : Cfg} {s s' : St} (h : Reach c s) {idx id : Nat} {r : Nat}
    (hs : step c s (.notarize idx id r) = .ok s') (hn : s.valCount ≤ (s.votes id).length + 1) :
    ∃ w, s'.answers = (id, w) :: s.answers := by
  obtain ⟨key, hk, hd, hi, ⟨w, _, hf⟩ | ⟨_, _, hf⟩ | ⟨hw, ht, hc, rfl⟩⟩ := notarize_ok hs
  · obtain ⟨_, rfl⟩ := finish_ok hf; exact ⟨w, rfl⟩
  · obtain ⟨_, rfl⟩ := finish_ok hf; exact ⟨r, rfl⟩
  · exfalso
    have htot : total (bump r (s.agg id)) = (s.votes id).length + 1 := by
      rw [bump_total, (h.inv.tally id).tot]
    unfold canReach at hc
    have hz : s.valCount - total (bump r (s.agg id)) = 0 := by omega
    rw [hz] at hc
    obtain ⟨p, hp, hp2⟩ := List.any_eq_true.mp hc
    unfold winner at hw
    rw [Option.map_eq_none_iff, List.find?_eq_none] at hw
    exact hw p hp hp2

/-- Non-vacuity: request 0 was answered once, request 1 is open with two votes. -/
example : demo.answers = [(0, 50)] ∧ demo.votes 1 = [(11, 60), (12, 61)] ∧ demo.requests = [1] := by
  refine ⟨?_, ?_, ?_⟩ <;> decide +kernel

/-! ## C69: the answer has the votes of the threshold -/

theorem percent_le {c p n : Nat} : c ≤ Ethy.percent p n → c * n ≤ 100 * p := by
  unfold Ethy.percent
  intro h
  have h1 : c * max n 1 ≤ 100 * min p (max n 1) := (Nat.le_div_iff_mul_le (by omega)).mp h
  have h2 : c * n ≤ c * max n 1 := Nat.mul_le_mul_left _ (le_max_left _ _)
  have h3 : 100 * min p (max n 1) ≤ 100 * p := Nat.mul_le_mul_left _ (min_le_left _ _)
  omega

theorem le_percent {c p n : Nat} (hc : c ≤ 100) (h : c * n ≤ 100 * p) (hn : 0 < n) : c ≤ Ethy.percent p n := by
  unfold Ethy.percent
  have hm : max n 1 = n := by omega
  rw [hm, Nat.le_div_iff_mul_le hn]
  rcases Nat.le_total p n with hle | hle
  · rw [min_eq_left hle]; exact h
  · rw [min_eq_right hle]; exact Nat.mul_le_mul_right _ hc

/-- C69, part: a request is answered with the result of the threshold of the validators, or it is answered
when even all outstanding votes together could not bring any result to the threshold.
Missing: that it is not reported with a result in the latter case (see `C69_minority_answer_refuted`). -/
theorem C69_threshold_or_hopeless_partial {c : Cfg} (hc : c.thr ≤ 100) {s s' : St} (h : Reach c s)
    {idx id : Nat} {r w : Nat} (hs : step c s (.notarize idx id r) = .ok s')
    (ha : s'.answers = (id, w) :: s.answers) (hn : 0 < s.valCount) :
    ∃ votes, votes.length = (s.votes id).length + 1 ∧ s.votes id <+: votes ∧
      (c.thr * s.valCount ≤ 100 * votesFor votes w ∨
       ∀ q, 100 * (votesFor votes q + (s.valCount - votes.length)) < c.thr * s.valCount ∨
         votesFor votes q = 0 ∨ votes.length = s.valCount) := by
  have hans : ∀ {t t' : St} {a : Nat × Nat} {l : List (Nat × Nat)}, t = t' → t.answers = a :: l →
      t'.answers = a :: l := by rintro _ _ _ _ rfl h; exact h
  obtain ⟨key, hk, hd, hi, hcase⟩ := notarize_ok hs
  have ht := (h.inv.tally id).bump key r
  refine ⟨s.votes id ++ [(key, r)], by simp, List.prefix_append _ _, ?_⟩
  rcases hcase with ⟨w', hw, hf⟩ | ⟨hw, hcr, hf⟩ | ⟨_, _, _, rfl⟩
  · obtain ⟨_, rfl⟩ := finish_ok hf
    dsimp only [withVote] at ha
    have e : w' = w := by
      have := (List.cons.inj ha).1
      exact (Prod.mk.inj this).2
    subst e
    left
    unfold winner at hw
    obtain ⟨p, hp, e⟩ := Option.map_eq_some_iff.mp hw
    have hm := List.mem_of_find?_eq_some hp
    have hq := List.find?_some hp
    rw [← e, ← ht.count p hm]
    exact percent_le (by simpa using hq)
  · right
    intro q
    rcases hcr with hcr | hcr
    · right; right; rw [← hcr, ht.tot]
    · by_cases hz : votesFor (s.votes id ++ [(key, r)]) q = 0
      · exact Or.inr (Or.inl hz)
      · left
        by_contra hge
        have hex : ∃ kv ∈ s.votes id ++ [(key, r)], kv.2 = q := by
          by_contra hno
          apply hz
          apply votesFor_zero
          intro kv hkv e
          exact hno ⟨kv, hkv, e⟩
        obtain ⟨kv, hkv, e⟩ := hex
        obtain ⟨n, hn'⟩ := ht.all kv hkv
        have hcnt := ht.count _ hn'
        simp only at hcnt
        unfold canReach at hcr
        have := List.any_eq_false.mp hcr _ hn'
        apply this
        simp only [decide_eq_true_eq]
        apply le_percent hc _ hn
        rw [ht.tot, hcnt, e]
        omega
  · exfalso
    dsimp only [withVote] at ha
    have := congrArg List.length ha
    simp at this

/-- Non-vacuity: the third vote for 50 answers request 0. -/
example : (exec cfg0 g0 (demoOps.take 6)).answers = [] ∧ (exec cfg0 g0 (demoOps.take 7)).answers = [(0, 50)] ∧
    (exec cfg0 g0 (demoOps.take 6)).votes 0 = [(11, 50), (14, 51), (12, 50)] := by
  refine ⟨?_, ?_, ?_⟩ <;> decide +kernel

/-- C69 is false: once no result can win, the subscriber is told the result of whoever voted last. Here 61
and 60 each have one vote of four, and the third vote, 62, is reported although it too has one vote. -/
theorem C69_minority_answer_refuted :
    ∃ s s', Reach cfg0 s ∧ step cfg0 s (.notarize 2 1 62) = .ok s' ∧ s.valCount = 4 ∧
      votesFor (s.votes 1) 62 = 0 ∧ s'.answers = (1, 62) :: s.answers := by
  refine ⟨demo, (step cfg0 demo (.notarize 2 1 62)).toOption.getD demo, demo_reach, ok_getD ?_, ?_, ?_, ?_⟩ <;>
    decide +kernel

end Verif.EthCall
