import Verif.Sft.Model

/-!
# Owner lists of semi-fungible tokens
-/

namespace Verif.Sft

theorem lookup_cons (e : Acct × Bal) (o : List (Acct × Bal)) (a : Acct) :
    lookup (e :: o) a = if e.1 = a then some e.2 else lookup o a := by
  unfold lookup
  rw [List.find?_cons]
  by_cases h : e.1 = a
  · simp [h]
  · simp [h]

theorem lookup_nil (a : Acct) : lookup [] a = none := rfl

theorem lookup_none {o : List (Acct × Bal)} {a : Acct} (h : a ∉ o.map Prod.fst) : lookup o a = none := by
  induction o with
  | nil => rfl
  | cons e o ih =>
    rw [List.map_cons, List.mem_cons, not_or] at h
    rw [lookup_cons, if_neg (fun hx => h.1 hx.symm)]
    exact ih h.2

theorem lookup_mem {o : List (Acct × Bal)} {a : Acct} {b : Bal} (h : lookup o a = some b) : a ∈ o.map Prod.fst := by
  by_contra hn
  rw [lookup_none hn] at h
  cases h

theorem lookup_append_new {o : List (Acct × Bal)} {who : Acct} {b : Bal} (h : who ∉ o.map Prod.fst) (a : Acct) :
    lookup (o ++ [(who, b)]) a = if a = who then some b else lookup o a := by
  induction o with
  | nil =>
    rw [List.nil_append, lookup_cons, lookup_nil]
    by_cases ha : a = who
    · rw [if_pos ha.symm, if_pos ha]
    · rw [if_neg (fun hx => ha hx.symm), if_neg ha]
  | cons e o ih =>
    rw [List.map_cons, List.mem_cons, not_or] at h
    rw [List.cons_append, lookup_cons, lookup_cons, ih h.2]
    by_cases ha : a = who
    · subst ha
      rw [if_neg (fun hx => h.1 hx.symm), if_pos rfl, if_pos rfl]
    · rw [if_neg ha, if_neg ha]

theorem lookup_filter (o : List (Acct × Bal)) (who a : Acct) :
    lookup (o.filter (fun e => decide (e.1 ≠ who))) a = if a = who then none else lookup o a := by
  induction o with
  | nil => rw [List.filter_nil, lookup_nil]; simp
  | cons e o ih =>
    rw [List.filter_cons]
    by_cases he : e.1 = who
    · rw [if_neg (by simp [he]), ih, lookup_cons]
      by_cases ha : a = who
      · rw [if_pos ha, if_pos ha]
      · rw [if_neg ha, if_neg ha, if_neg (fun hx => ha (hx.symm.trans he))]
    · rw [if_pos (by simp [he]), lookup_cons, lookup_cons, ih]
      by_cases ha : a = who
      · subst ha
        rw [if_neg he, if_pos rfl, if_pos rfl]
      · rw [if_neg ha, if_neg ha]

theorem modFirst_ok {who : Acct} {f : Bal → Except Err Bal} : ∀ {o o' : List (Acct × Bal)}, modFirst who f o = .ok o' →
    ∃ b b', lookup o who = some b ∧ f b = .ok b' ∧ (∀ a, lookup o' a = if a = who then some b' else lookup o a) ∧
      o'.map Prod.fst = o.map Prod.fst
  | [], _, h => by cases h
  | e :: o, o', h => by
    unfold modFirst at h
    split at h
    · rename_i he
      simp only [bind_ok, pure_ok] at h
      obtain ⟨b, hb, rfl⟩ := h
      refine ⟨e.2, b, by rw [lookup_cons, if_pos he], hb, fun a => ?_, rfl⟩
      rw [lookup_cons, lookup_cons]
      by_cases ha : a = who
      · rw [if_pos ha, if_pos (he.trans ha.symm)]
      · rw [if_neg ha, if_neg (fun hx => ha (hx.symm.trans he)), if_neg (fun hx => ha (hx.symm.trans he))]
    · rename_i he
      simp only [bind_ok, pure_ok] at h
      obtain ⟨o1, h1, rfl⟩ := h
      obtain ⟨b, b', h2, h3, h4, h5⟩ := modFirst_ok h1
      refine ⟨b, b', by rw [lookup_cons, if_neg he]; exact h2, h3, fun a => ?_, by simp [h5]⟩
      rw [lookup_cons, lookup_cons, h4]
      by_cases ha : a = who
      · subst ha; rw [if_neg he, if_pos rfl, if_pos rfl]
      · rw [if_neg ha, if_neg ha]

theorem modFirst_len {who : Acct} {f : Bal → Except Err Bal} {o o' : List (Acct × Bal)} (h : modFirst who f o = .ok o') :
    o'.length = o.length := by
  obtain ⟨_, _, _, _, _, h5⟩ := modFirst_ok h
  have := congrArg List.length h5
  simpa using this

/-- Two owner lists with the same balances but for a change `d` of the free balance of an account. -/
theorem freeOf_of {o o' : List (Acct × Bal)} {who : Acct} {b' : Bal}
    (h : ∀ a, lookup o' a = if a = who then some b' else lookup o a) (a : Acct) :
    freeOf o' a = (if a = who then b'.free else freeOf o a) ∧ resOf o' a = (if a = who then b'.res else resOf o a) := by
  unfold freeOf resOf
  rw [h a]
  by_cases ha : a = who
  · simp [ha]
  · simp [ha]

theorem of_lookup {o : List (Acct × Bal)} {a : Acct} {b : Bal} (h : lookup o a = some b) :
    freeOf o a = b.free ∧ resOf o a = b.res := by
  unfold freeOf resOf
  rw [h]
  exact ⟨rfl, rfl⟩

theorem of_lookup_none {o : List (Acct × Bal)} {a : Acct} (h : lookup o a = none) : freeOf o a = 0 ∧ resOf o a = 0 := by
  unfold freeOf resOf
  rw [h]
  exact ⟨rfl, rfl⟩

theorem addBalance_ok {max : Nat} {o o' : List (Acct × Bal)} {who : Acct} {amt : Nat}
    (h : addBalance max o who amt = .ok o') :
    (∀ a, freeOf o' a = freeOf o a + (if a = who then amt else 0)) ∧ (∀ a, resOf o' a = resOf o a) ∧
    ((o.map Prod.fst).Nodup → (o'.map Prod.fst).Nodup) ∧ (o.length ≤ max → o'.length ≤ max) := by
  unfold addBalance at h
  split at h
  · obtain ⟨b, b', h1, h2, h3, h4⟩ := modFirst_ok h
    have hl := modFirst_len h
    simp only [addFree, bind_ok, ensure_ok, pure_ok] at h2
    obtain ⟨_, _, rfl⟩ := h2
    refine ⟨fun a => ?_, fun a => ?_, by rw [h4]; exact fun x => x, by rw [hl]; exact fun x => x⟩
    · rw [(freeOf_of h3 a).1]
      by_cases ha : a = who
      · subst ha; rw [if_pos rfl, if_pos rfl, (of_lookup h1).1]
      · rw [if_neg ha, if_neg ha, Nat.add_zero]
    · rw [(freeOf_of h3 a).2]
      by_cases ha : a = who
      · subst ha; rw [if_pos rfl, (of_lookup h1).2]
      · rw [if_neg ha]
  · rename_i hn
    simp only [bind_ok, ensure_ok, pure_ok] at h
    obtain ⟨_, hlen, rfl⟩ := h
    have hn' : who ∉ o.map Prod.fst := by
      intro hm
      obtain ⟨e, he, hw⟩ := List.mem_map.mp hm
      exact hn (List.any_eq_true.mpr ⟨e, he, by simpa using hw⟩)
    have h3 := lookup_append_new (b := ⟨amt, 0⟩) hn'
    refine ⟨fun a => ?_, fun a => ?_, fun hnd => ?_, fun _ => by rw [List.length_append]; exact hlen⟩
    · rw [(freeOf_of h3 a).1]
      by_cases ha : a = who
      · subst ha; rw [if_pos rfl, if_pos rfl, (of_lookup_none (lookup_none hn')).1, Nat.zero_add]
      · rw [if_neg ha, if_neg ha, Nat.add_zero]
    · rw [(freeOf_of h3 a).2]
      by_cases ha : a = who
      · subst ha; rw [if_pos rfl, (of_lookup_none (lookup_none hn')).2]
      · rw [if_neg ha]
    · rw [List.map_append, List.nodup_append]
      refine ⟨hnd, by simp, ?_⟩
      intro a ha b hb hab
      subst hab
      simp only [List.map_cons, List.map_nil, List.mem_singleton] at hb
      exact hn' (hb ▸ ha)

theorem dropEmpty_ok (o : List (Acct × Bal)) (who : Acct) (hlt : freeOf o who + resOf o who < U128) :
    (∀ a, freeOf (dropEmpty o who) a = freeOf o a) ∧ (∀ a, resOf (dropEmpty o who) a = resOf o a) ∧
    ((o.map Prod.fst).Nodup → ((dropEmpty o who).map Prod.fst).Nodup) ∧ (dropEmpty o who).length ≤ o.length := by
  unfold dropEmpty
  split
  · rename_i h0
    cases hl : lookup o who with
    | none => rw [hl] at h0; cases h0
    | some b =>
      rw [hl] at h0
      simp only [Option.map_some, Option.some.injEq, total] at h0
      rw [(of_lookup hl).1, (of_lookup hl).2] at hlt
      rw [Nat.mod_eq_of_lt hlt] at h0
      refine ⟨fun a => ?_, fun a => ?_, fun hnd => ?_, List.length_filter_le _ _⟩
      · by_cases ha : a = who
        · subst ha
          rw [(of_lookup hl).1]
          have := (of_lookup_none (o := o.filter (fun e => decide (e.1 ≠ a))) (a := a) (by rw [lookup_filter, if_pos rfl])).1
          rw [this]; omega
        · unfold freeOf; rw [lookup_filter, if_neg ha]
      · by_cases ha : a = who
        · subst ha
          rw [(of_lookup hl).2]
          have := (of_lookup_none (o := o.filter (fun e => decide (e.1 ≠ a))) (a := a) (by rw [lookup_filter, if_pos rfl])).2
          rw [this]; omega
        · unfold resOf; rw [lookup_filter, if_neg ha]
      · exact hnd.sublist (List.filter_sublist.map _)
  · exact ⟨fun _ => rfl, fun _ => rfl, fun x => x, le_refl _⟩

theorem removeBalance_ok {o o' : List (Acct × Bal)} {who : Acct} {amt : Nat} (h : removeBalance o who amt = .ok o')
    (hlt : freeOf o who + resOf o who < U128) :
    amt ≤ freeOf o who ∧ (∀ a, freeOf o' a + (if a = who then amt else 0) = freeOf o a) ∧
    (∀ a, resOf o' a = resOf o a) ∧ ((o.map Prod.fst).Nodup → (o'.map Prod.fst).Nodup) ∧ o'.length ≤ o.length := by
  simp only [removeBalance, bind_ok, pure_ok] at h
  obtain ⟨o1, h1, rfl⟩ := h
  obtain ⟨b, b', h2, h3, h4, h5⟩ := modFirst_ok h1
  have hl := modFirst_len h1
  simp only [remFree, bind_ok, ensure_ok, pure_ok] at h3
  obtain ⟨_, hle, rfl⟩ := h3
  have hf : ∀ a, freeOf o1 a + (if a = who then amt else 0) = freeOf o a := by
    intro a
    rw [(freeOf_of h4 a).1]
    by_cases ha : a = who
    · subst ha
      rw [if_pos rfl, if_pos rfl, (of_lookup h2).1]
      dsimp only; omega
    · rw [if_neg ha, if_neg ha, Nat.add_zero]
  have hr : ∀ a, resOf o1 a = resOf o a := by
    intro a
    rw [(freeOf_of h4 a).2]
    by_cases ha : a = who
    · subst ha; rw [if_pos rfl, (of_lookup h2).2]
    · rw [if_neg ha]
  have hlt1 : freeOf o1 who + resOf o1 who < U128 := by
    have := hf who
    rw [hr who]
    omega
  obtain ⟨d1, d2, d3, d4⟩ := dropEmpty_ok o1 who hlt1
  refine ⟨by rw [(of_lookup h2).1]; exact hle, fun a => by rw [d1]; exact hf a, fun a => by rw [d2]; exact hr a,
    fun hnd => d3 (by rw [h5]; exact hnd), by omega⟩

theorem transferBalance_ok {max : Nat} {o o' : List (Acct × Bal)} {src dst : Acct} {amt : Nat}
    (h : transferBalance max o src dst amt = .ok o') (hne : src ≠ dst) (hlt : freeOf o src + resOf o src < U128) :
    amt ≤ freeOf o src ∧
    (∀ a, freeOf o' a + (if a = src then amt else 0) = freeOf o a + (if a = dst then amt else 0)) ∧
    (∀ a, resOf o' a = resOf o a) ∧ ((o.map Prod.fst).Nodup → (o'.map Prod.fst).Nodup) ∧
    (o.length ≤ max → o'.length ≤ max) := by
  unfold transferBalance at h
  rw [if_neg hne] at h
  simp only [bind_ok] at h
  obtain ⟨o1, h1, h2⟩ := h
  obtain ⟨a1, a2, a3, a4, a5⟩ := removeBalance_ok h1 hlt
  obtain ⟨b1, b2, b3, b4⟩ := addBalance_ok h2
  refine ⟨a1, fun a => ?_, fun a => by rw [b2, a3], fun hnd => b3 (a4 hnd), fun hl => b4 (by omega)⟩
  have e1 := a2 a
  have e2 := b1 a
  omega

/-- Reserving moves balance from free to reserved of one account. -/
theorem reserve_ok {o o' : List (Acct × Bal)} {who : Acct} {amt : Nat} (h : modFirst who (placeReserve amt) o = .ok o') :
    amt ≤ freeOf o who ∧ (∀ a, freeOf o' a + (if a = who then amt else 0) = freeOf o a) ∧
    (∀ a, resOf o' a = resOf o a + (if a = who then amt else 0)) ∧ o'.map Prod.fst = o.map Prod.fst := by
  obtain ⟨b, b', h2, h3, h4, h5⟩ := modFirst_ok h
  simp only [placeReserve, remFree, bind_ok, ensure_ok, pure_ok] at h3
  obtain ⟨_, ⟨_, hle, rfl⟩, _, _, rfl⟩ := h3
  refine ⟨by rw [(of_lookup h2).1]; exact hle, fun a => ?_, fun a => ?_, h5⟩
  · rw [(freeOf_of h4 a).1]
    by_cases ha : a = who
    · subst ha
      rw [if_pos rfl, if_pos rfl, (of_lookup h2).1]
      dsimp only; omega
    · rw [if_neg ha, if_neg ha, Nat.add_zero]
  · rw [(freeOf_of h4 a).2]
    by_cases ha : a = who
    · subst ha
      rw [if_pos rfl, if_pos rfl, (of_lookup h2).2]
    · rw [if_neg ha, if_neg ha, Nat.add_zero]

theorem unreserve_ok {o o' : List (Acct × Bal)} {who : Acct} {amt : Nat} (h : modFirst who (removeReserve amt) o = .ok o') :
    amt ≤ resOf o who ∧ (∀ a, freeOf o' a = freeOf o a + (if a = who then amt else 0)) ∧
    (∀ a, resOf o' a + (if a = who then amt else 0) = resOf o a) ∧ o'.map Prod.fst = o.map Prod.fst := by
  obtain ⟨b, b', h2, h3, h4, h5⟩ := modFirst_ok h
  simp only [removeReserve, addFree, bind_ok, ensure_ok, pure_ok] at h3
  obtain ⟨_, hle, _, _, rfl⟩ := h3
  refine ⟨by rw [(of_lookup h2).2]; exact hle, fun a => ?_, fun a => ?_, h5⟩
  · rw [(freeOf_of h4 a).1]
    by_cases ha : a = who
    · subst ha
      rw [if_pos rfl, if_pos rfl, (of_lookup h2).1]
    · rw [if_neg ha, if_neg ha, Nat.add_zero]
  · rw [(freeOf_of h4 a).2]
    by_cases ha : a = who
    · subst ha
      rw [if_pos rfl, if_pos rfl, (of_lookup h2).2]
      dsimp only; omega
    · rw [if_neg ha, if_neg ha, Nat.add_zero]

/-! ## The invariant of a token record -/

/-- C28 for one token record. -/
structure TI (c : Cfg) (t : Tok) : Prop where
  nodup : (t.owned.map Prod.fst).Nodup
  sum : TotalIs (fun a => freeOf t.owned a + resOf t.owned a) t.iss
  u128 : t.iss < U128
  cap : ∀ m, t.max = some m → t.iss ≤ m

theorem TI.lt {c : Cfg} {t : Tok} (h : TI c t) (a : Acct) : freeOf t.owned a + resOf t.owned a < U128 :=
  lt_of_le_of_lt (h.sum.le a) h.u128

theorem TI.first {c : Cfg} {max : Option Nat} {initial : Nat} {owner : Acct} (h1 : initial < U128)
    (h2 : ∀ m, max = some m → 0 < m ∧ initial ≤ m) : TI c ⟨max, initial, firstOwned owner initial⟩ := by
  refine ⟨?_, ?_, h1, fun m hm => (h2 m hm).2⟩
  · unfold firstOwned; split <;> simp
  · have := (TotalIs.zero (α := Acct)).upd_add owner initial
    rw [Nat.zero_add] at this
    refine this.congr (fun a => ?_)
    simp only [upd_apply]
    unfold firstOwned
    by_cases hi : 0 < initial
    · rw [if_pos hi]
      unfold freeOf resOf
      rw [lookup_cons, lookup_nil]
      by_cases ha : a = owner
      · rw [if_pos ha.symm, if_pos ha]; rfl
      · rw [if_neg (fun hx => ha hx.symm), if_neg ha]; rfl
    · rw [if_neg hi]
      simp [freeOf, resOf, lookup]
      omega

theorem TI.minted {c : Cfg} {t : Tok} (h : TI c t) {who : Acct} {q : Nat} {o : List (Acct × Bal)}
    (h1 : t.iss + q < U128) (h2 : ∀ m, t.max = some m → t.iss + q ≤ m) (ho : addBalance c.maxOwners t.owned who q = .ok o) :
    TI c { t with iss := t.iss + q, owned := o } := by
  obtain ⟨b1, b2, b3, b4⟩ := addBalance_ok ho
  refine ⟨b3 h.nodup, ?_, h1, h2⟩
  refine (h.sum.upd_add who q).congr (fun a => ?_)
  dsimp only
  rw [b1, b2, upd_apply]
  by_cases ha : a = who
  · subst ha; rw [if_pos rfl, if_pos rfl]; omega
  · rw [if_neg ha, if_neg ha]; omega

theorem TI.burnt {c : Cfg} {t : Tok} (h : TI c t) {who : Acct} {q : Nat} {o : List (Acct × Bal)}
    (ho : removeBalance t.owned who q = .ok o) : TI c { t with iss := t.iss - q, owned := o } := by
  obtain ⟨a1, a2, a3, a4, a5⟩ := removeBalance_ok ho (h.lt who)
  refine ⟨a4 h.nodup, ?_, by have := h.u128; dsimp only; omega, fun m hm => by have := h.cap m hm; dsimp only; omega⟩
  refine (h.sum.upd_sub who q (by omega)).congr (fun a => ?_)
  dsimp only
  rw [a3, upd_apply]
  have := a2 a
  by_cases ha : a = who
  · subst ha; rw [if_pos rfl] at this ⊢; omega
  · rw [if_neg ha] at this ⊢; omega

theorem TI.moved {c : Cfg} {t : Tok} (h : TI c t) {src dst : Acct} {q : Nat} {o : List (Acct × Bal)} (hne : src ≠ dst)
    (ho : transferBalance c.maxOwners t.owned src dst q = .ok o) : TI c { t with owned := o } := by
  obtain ⟨a1, a2, a3, a4, a5⟩ := transferBalance_ok ho hne (h.lt src)
  refine ⟨a4 h.nodup, ?_, h.u128, h.cap⟩
  have h1 := h.sum.upd_sub src q (by omega)
  have h2 := h1.upd_add dst q
  have hle := h.sum.le src
  have e : t.iss - q + q = t.iss := by omega
  rw [e] at h2
  refine h2.congr (fun a => ?_)
  dsimp only
  rw [a3, upd_apply, upd_apply, upd_apply]
  have := a2 a
  rw [if_neg (Ne.symm hne)]
  by_cases ha : a = src
  · subst ha
    rw [if_pos rfl, if_neg hne] at this
    rw [if_neg hne, if_pos rfl]; omega
  · rw [if_neg ha] at this ⊢
    by_cases hd : a = dst
    · subst hd; rw [if_pos rfl] at this ⊢; omega
    · rw [if_neg hd] at this ⊢; omega

theorem TI.reserved {c : Cfg} {t : Tok} (h : TI c t) {who : Acct} {q : Nat} {o : List (Acct × Bal)}
    (ho : modFirst who (placeReserve q) t.owned = .ok o) : TI c { t with owned := o } := by
  obtain ⟨a1, a2, a3, a4⟩ := reserve_ok ho
  refine ⟨by dsimp only; rw [a4]; exact h.nodup, h.sum.congr (fun a => ?_), h.u128, h.cap⟩
  have e1 := a2 a
  have e2 := a3 a
  dsimp only; omega

theorem TI.unreserved {c : Cfg} {t : Tok} (h : TI c t) {who : Acct} {q : Nat} {o : List (Acct × Bal)}
    (ho : modFirst who (removeReserve q) t.owned = .ok o) : TI c { t with owned := o } := by
  obtain ⟨a1, a2, a3, a4⟩ := unreserve_ok ho
  refine ⟨by dsimp only; rw [a4]; exact h.nodup, h.sum.congr (fun a => ?_), h.u128, h.cap⟩
  have e1 := a2 a
  have e2 := a3 a
  dsimp only; omega

end Verif.Sft
