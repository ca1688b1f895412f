import Verif.Nft.Inv

/-!
# Paging through owned tokens (C26)
-/

namespace Verif.Nft

/-- impls.rs:330-341: the serials of the first entry of the account, sorted. -/
def sortedOwned (o : List Own) (who : Acct) : List Nat :=
  sortN (((o.find? (fun e => decide (e.owner = who))).map Own.serials).getD [])

/-- impls.rs:357-371: the cursor of the next page. -/
def nextCursor (page : List Nat) (lastId : Nat) : Nat :=
  match page.getLast? with
  | some h => if h ≠ lastId then min (h + 1) (U32 - 1) else 0
  | none => 0

/-- impls.rs:350-355: one page. -/
def pageOf (l : List Nat) (cursor limit : Nat) : List Nat :=
  (l.filter (fun n => decide (cursor ≤ n))).take (min limit 1000)

/-- impls.rs:322-374 `owned_tokens` of an existing collection: new cursor, number of tokens, page. The limit
`MAX_OWNED_TOKENS_LIMIT` is 1000 (lib.rs:72). -/
def ownedTokens (o : List Own) (who : Acct) (cursor limit : Nat) : Nat × Nat × List Nat :=
  (nextCursor (pageOf (sortedOwned o who) cursor limit) ((sortedOwned o who).getLast?.getD 0),
    (sortedOwned o who).length, pageOf (sortedOwned o who) cursor limit)

/-- A client reads pages from a cursor until the cursor returned is 0; the list is what it has read. -/
inductive Reads (o : List Own) (who : Acct) (limit : Nat) : Nat → List Nat → Prop where
  | last {cur : Nat} : (ownedTokens o who cur limit).1 = 0 → Reads o who limit cur (ownedTokens o who cur limit).2.2
  | more {cur : Nat} {rest : List Nat} : (ownedTokens o who cur limit).1 ≠ 0 →
      Reads o who limit (ownedTokens o who cur limit).1 rest →
      Reads o who limit cur ((ownedTokens o who cur limit).2.2 ++ rest)

theorem sortN_sorted (l : List Nat) : (sortN l).Pairwise (· ≤ ·) := by
  exact List.pairwise_insertionSort (· ≤ ·) l

/-- In a strictly increasing list the part above the last element of a prefix is the rest. -/
theorem filter_above : ∀ {a b : List Nat} {h : Nat}, (a ++ b).Pairwise (· < ·) → a.getLast? = some h →
    (a ++ b).filter (fun n => decide (h + 1 ≤ n)) = b := by
  intro a b h hp hl
  rw [List.filter_append]
  have h1 : a.filter (fun n => decide (h + 1 ≤ n)) = [] := by
    rw [List.filter_eq_nil_iff]
    intro n hn
    simp only [decide_eq_true_eq, not_le]
    obtain ⟨c, rfl⟩ := List.getLast?_eq_some_iff.mp hl
    have := (List.pairwise_append.mp (List.pairwise_append.mp hp).1).2.2
    rcases List.mem_append.mp hn with hm | hm
    · have := this n hm h List.mem_cons_self; omega
    · rw [List.mem_singleton] at hm; omega
  have h2 : b.filter (fun n => decide (h + 1 ≤ n)) = b := by
    rw [List.filter_eq_self]
    intro n hn
    simp only [decide_eq_true_eq]
    have := (List.pairwise_append.mp hp).2.2 h (List.mem_of_getLast? hl) n hn
    omega
  rw [h1, h2, List.nil_append]

/-- One page of the part of a strictly increasing list above the cursor. -/
theorem page_cases {L : List Nat} (hL : L.Pairwise (· < ·)) (hb : ∀ n ∈ L, n < U32) {cur limit : Nat}
    (hl : 1 ≤ limit) :
    (nextCursor (pageOf L cur limit) (L.getLast?.getD 0) = 0 ∧
      pageOf L cur limit = L.filter (fun n => decide (cur ≤ n))) ∨
    (nextCursor (pageOf L cur limit) (L.getLast?.getD 0) ≠ 0 ∧
      L.filter (fun n => decide (cur ≤ n)) = pageOf L cur limit ++
        L.filter (fun n => decide (nextCursor (pageOf L cur limit) (L.getLast?.getD 0) ≤ n)) ∧
      pageOf L cur limit ≠ []) := by
  have hF : (L.filter (fun n => decide (cur ≤ n))).Pairwise (· < ·) := hL.filter _
  generalize hFe : L.filter (fun n => decide (cur ≤ n)) = F at hF
  have hpg : pageOf L cur limit = F.take (min limit 1000) := by unfold pageOf; rw [hFe]
  rw [hpg]
  by_cases hF0 : F = []
  · left; subst hF0; simp [nextCursor]
  have hm : 1 ≤ min limit 1000 := by omega
  have hpne : F.take (min limit 1000) ≠ [] := by
    intro hx
    rw [List.take_eq_nil_iff] at hx
    rcases hx with h | h
    · omega
    · exact hF0 h
  obtain ⟨h, hh⟩ : ∃ h, (F.take (min limit 1000)).getLast? = some h := by
    cases hx : (F.take (min limit 1000)).getLast? with
    | none => exact absurd (List.getLast?_eq_none_iff.mp hx) hpne
    | some h => exact ⟨h, rfl⟩
  have hsplit : F.take (min limit 1000) ++ F.drop (min limit 1000) = F := List.take_append_drop _ _
  -- the last token of the account
  obtain ⟨z, hz⟩ : ∃ z, L.getLast? = some z := by
    cases hx : L.getLast? with
    | none =>
      rw [List.getLast?_eq_none_iff] at hx
      subst hx
      exact absurd hFe.symm hF0
    | some z => exact ⟨z, rfl⟩
  obtain ⟨L0, hL0⟩ := List.getLast?_eq_some_iff.mp hz
  have hFL : ∀ n ∈ F, n ∈ L ∧ cur ≤ n := by
    intro n hn; rw [← hFe, List.mem_filter, decide_eq_true_eq] at hn; exact hn
  have hzmax : ∀ n ∈ L, n ≤ z := by
    intro n hn
    rw [hL0] at hn hL
    rcases List.mem_append.mp hn with hm' | hm'
    · exact le_of_lt ((List.pairwise_append.mp hL).2.2 n hm' z List.mem_cons_self)
    · rw [List.mem_singleton] at hm'; omega
  have hhF : h ∈ F := List.mem_of_mem_take (List.mem_of_getLast? hh)
  have hzF : z ∈ F := by
    rw [← hFe, List.mem_filter, decide_eq_true_eq]
    exact ⟨List.mem_of_getLast? hz, le_trans (hFL h hhF).2 (hzmax h (hFL h hhF).1)⟩
  have hnc : nextCursor (F.take (min limit 1000)) (L.getLast?.getD 0) =
      if h ≠ z then min (h + 1) (U32 - 1) else 0 := by
    unfold nextCursor
    rw [hh, hz]
    rfl
  by_cases hhz : h = z
  · left
    rw [if_neg (fun hc => hc hhz)] at hnc
    refine ⟨hnc, ?_⟩
    -- nothing is above the last token
    have : F.drop (min limit 1000) = [] := by
      rw [← hsplit] at hF
      by_contra hne
      obtain ⟨x, hx⟩ := List.exists_mem_of_ne_nil _ hne
      have h1 := (List.pairwise_append.mp hF).2.2 h (List.mem_of_getLast? hh) x hx
      have h2 := hzmax x (hFL x (List.mem_of_mem_drop hx)).1
      omega
    rw [this, List.append_nil] at hsplit
    exact hsplit
  · right
    rw [if_pos hhz] at hnc
    have hlt : h < z := lt_of_le_of_ne (hzmax h (hFL h hhF).1) hhz
    have hzb := hb z (List.mem_of_getLast? hz)
    have hcur : min (h + 1) (U32 - 1) = h + 1 := by omega
    rw [hcur] at hnc
    rw [hnc]
    refine ⟨by omega, ?_, hpne⟩
    have e1 : L.filter (fun n => decide (h + 1 ≤ n)) = F.filter (fun n => decide (h + 1 ≤ n)) := by
      rw [← hFe, List.filter_filter]
      apply List.filter_congr
      intro n hn
      have hc := (hFL h hhF).2
      by_cases hx : h + 1 ≤ n
      · have : cur ≤ n := by omega
        simp [hx, this]
      · simp [hx]
    have e2 := filter_above (a := F.take (min limit 1000)) (b := F.drop (min limit 1000)) (by rw [hsplit]; exact hF) hh
    rw [hsplit] at e2
    rw [e1, e2, hsplit]

theorem reads_spec {o : List Own} {who : Acct} {limit : Nat} (hl : 1 ≤ limit)
    (hL : (sortedOwned o who).Pairwise (· < ·)) (hb : ∀ n ∈ sortedOwned o who, n < U32) {cur : Nat} {l : List Nat}
    (h : Reads o who limit cur l) : l = (sortedOwned o who).filter (fun n => decide (cur ≤ n)) := by
  induction h with
  | @last cur h0 =>
    rcases page_cases hL hb (cur := cur) hl with ⟨_, h2⟩ | ⟨h1, _⟩
    · exact h2
    · exact absurd h0 h1
  | @more cur rest h0 _ ih =>
    rcases page_cases hL hb (cur := cur) hl with ⟨h1, _⟩ | ⟨_, h2, _⟩
    · exact absurd h1 h0
    · rw [h2, ih]; rfl

theorem reads_ends {o : List Own} {who : Acct} {limit : Nat} (hl : 1 ≤ limit)
    (hL : (sortedOwned o who).Pairwise (· < ·)) (hb : ∀ n ∈ sortedOwned o who, n < U32) :
    ∀ (k cur : Nat), ((sortedOwned o who).filter (fun n => decide (cur ≤ n))).length ≤ k →
      ∃ l, Reads o who limit cur l := by
  intro k
  induction k with
  | zero =>
    intro cur hk
    rcases page_cases hL hb (cur := cur) hl with ⟨h1, _⟩ | ⟨_, h2, h3⟩
    · exact ⟨_, .last h1⟩
    · rw [h2, List.length_append] at hk
      exact absurd (List.eq_nil_of_length_eq_zero (by omega)) h3
  | succ k ih =>
    intro cur hk
    rcases page_cases hL hb (cur := cur) hl with ⟨h1, _⟩ | ⟨h1, h2, h3⟩
    · exact ⟨_, .last h1⟩
    · rw [h2, List.length_append] at hk
      have : 0 < (pageOf (sortedOwned o who) cur limit).length := List.length_pos_iff.mpr h3
      obtain ⟨rest, hr⟩ := ih (nextCursor (pageOf (sortedOwned o who) cur limit)
        ((sortedOwned o who).getLast?.getD 0)) (by omega)
      exact ⟨_, .more h1 hr⟩

theorem mem_sortedOwned {o : List Own} (hn : (o.map Own.owner).Nodup) {who : Acct} {n : Nat} :
    n ∈ sortedOwned o who ↔ Owns o who n := by
  unfold sortedOwned
  rw [mem_sortN]
  induction o with
  | nil => simp [Owns]
  | cons e o ih =>
    rw [List.map_cons, List.nodup_cons] at hn
    rw [List.find?_cons]
    by_cases he : e.owner = who
    · simp only [he, decide_true, Option.map_some, Option.getD_some]
      constructor
      · intro h; exact ⟨e, List.mem_cons_self, he, h⟩
      · rintro ⟨x, hx, hxa, h⟩
        rcases List.mem_cons.mp hx with rfl | hm
        · exact h
        · exact absurd (List.mem_map.mpr ⟨x, hm, hxa.trans he.symm⟩) hn.1
    · simp only [he, decide_false]
      rw [ih hn.2]
      constructor
      · rintro ⟨x, hx, h⟩; exact ⟨x, List.mem_cons_of_mem _ hx, h⟩
      · rintro ⟨x, hx, hxa, h⟩
        rcases List.mem_cons.mp hx with rfl | hm
        · exact absurd hxa he
        · exact ⟨x, hm, hxa, h⟩

theorem sortedOwned_strict {o : List Own} (hs : ∀ e ∈ o, e.serials.Nodup) (who : Acct) :
    (sortedOwned o who).Pairwise (· < ·) := by
  have hnd : (sortedOwned o who).Nodup := by
    unfold sortedOwned
    rw [(sortN_perm _).nodup_iff]
    cases hf : o.find? (fun e => decide (e.owner = who)) with
    | none => exact List.nodup_nil
    | some e => exact hs e (List.mem_of_find?_eq_some hf)
  exact ((sortN_sorted _).and hnd).imp (fun h => lt_of_le_of_ne h.1 h.2)

end Verif.Nft
