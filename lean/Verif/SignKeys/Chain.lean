import Verif.SignKeys.Props

/-!
# C267 over the chain's own changes of validators

/repo/pallet/ethy/src/impls.rs:559-566 `validator_set` and 912-941 `do_finalise_authorities_change`, the only place where the keys
of the notaries and the number of their set change after genesis.
-/

namespace Verif.SignKeys

/-- impls.rs:918-940: the next keys become the keys, the number is raised (`wrapping_add` on `u64`), and a log is deposited. -/
def finalise (v : VSet) (next : List Nat) : VSet := ⟨(v.id + 1) % 2 ^ 64, next⟩

/-- What happens in a block: the changes that are made final in it, and what the node meets. -/
structure Blk where
  changes : List (List Nat)
  answers : Bool
  store : Option (List Nat)
  reqs : List Req

/-- The blocks of a chain on which the validators were `v`. -/
def produce (v : VSet) : List Blk → List Block
  | [] => []
  | x :: xs => ⟨!x.changes.isEmpty, x.changes.foldl finalise v, x.answers, x.store, x.reqs⟩ :: produce (x.changes.foldl finalise v) xs

/-- The number of changes in a history. -/
def changes (xs : List Blk) : Nat := (xs.map (·.changes.length)).sum

theorem fold_id (l : List (List Nat)) : ∀ v : VSet, v.id < 2 ^ 64 → (l.foldl finalise v).id = (v.id + l.length) % 2 ^ 64 := by
  induction l with
  | nil => intro v h; exact (Nat.mod_eq_of_lt h).symm
  | cons a l ih =>
    intro v h
    simp only [List.foldl_cons]
    rw [ih _ (by simp only [finalise]; exact Nat.mod_lt _ (by decide))]
    simp only [finalise, List.length_cons]
    omega

theorem fold_lt (l : List (List Nat)) (v : VSet) (h : v.id < 2 ^ 64) : (l.foldl finalise v).id < 2 ^ 64 := by
  rw [fold_id l v h]; exact Nat.mod_lt _ (by decide)

/-- A later set of validators is the present one, or has a number that is higher by at most the number of changes. -/
theorem later_id (xs : List Blk) : ∀ v : VSet, v.id < 2 ^ 64 → ∀ b ∈ produce v xs,
    b.chain = v ∨ ∃ k, 0 < k ∧ k ≤ changes xs ∧ b.chain.id = (v.id + k) % 2 ^ 64 := by
  induction xs with
  | nil => intro v _ b hb; simp [produce] at hb
  | cons x xs ih =>
    intro v h b hb
    have hc : changes (x :: xs) = x.changes.length + changes xs := by simp [changes]
    have hv := fold_id x.changes v h
    have h0 : x.changes = [] ∨ 0 < x.changes.length := by
      cases x.changes <;> simp
    simp only [produce, List.mem_cons] at hb
    rcases hb with rfl | hb
    · rcases h0 with h0 | h0
      · left; simp [h0]
      · exact Or.inr ⟨x.changes.length, h0, by omega, hv⟩
    · rcases ih _ (fold_lt x.changes v h) b hb with hb | ⟨k, hk, hk', hid⟩
      · rcases h0 with h0 | h0
        · left; simpa [h0] using hb
        · exact Or.inr ⟨x.changes.length, h0, by omega, by rw [hb]; exact hv⟩
      · refine Or.inr ⟨x.changes.length + k, by omega, by omega, ?_⟩
        rw [hid, hv]; omega

theorem same_id (xs : List Blk) (v : VSet) (h : v.id < 2 ^ 64) (hn : changes xs < 2 ^ 64) (b : Block) (hb : b ∈ produce v xs)
    (hid : b.chain.id = v.id) : b.chain = v := by
  rcases later_id xs v h b hb with hb | ⟨k, hk, hk', he⟩
  · exact hb
  · omega

/-- What C267 asks of a chain holds of this one, as long as it makes fewer than 2^64 changes. -/
theorem honest (xs : List Blk) : ∀ v : VSet, v.id < 2 ^ 64 → changes xs < 2 ^ 64 → (∀ x ∈ xs, x.answers = true) →
    Honest (produce v xs) := by
  induction xs with
  | nil => intro v _ _ _; exact ⟨by simp [produce], by simp [produce], by simp [produce]⟩
  | cons x xs ih =>
    intro v h hn ha
    have hc : changes (x :: xs) = x.changes.length + changes xs := by simp [changes]
    have hlt := fold_lt x.changes v h
    have hi := ih _ hlt (by omega) (fun y hy => ha y (List.mem_cons_of_mem _ hy))
    refine ⟨?_, ?_, ?_⟩
    · intro b hb
      simp only [produce, List.mem_cons] at hb
      rcases hb with rfl | hb
      · exact ha x List.mem_cons_self
      · exact hi.answers b hb
    · intro b hb c hcm hid
      simp only [produce, List.mem_cons] at hb hcm
      rcases hb with rfl | hb <;> rcases hcm with rfl | hcm
      · rfl
      · exact (same_id xs _ hlt (by omega) c hcm hid.symm).symm
      · exact same_id xs _ hlt (by omega) b hb hid
      · exact hi.numbered b hb c hcm hid
    · have hch := hi.announced
      cases xs with
      | nil => simp [produce]
      | cons y ys =>
        simp only [produce] at hch ⊢
        refine List.isChain_cons_cons.2 ⟨fun hne => ?_, hch⟩
        cases hy : y.changes with
        | nil => simp [hy] at hne
        | cons z zs => simp

/-- **C267** without assumptions on the chain: from its start on, through all changes of validators the pallet makes and all changes
of its keys, a node whose runtime answers votes once on each request that can be signed, with the first of the present validators'
keys that it holds. -/
theorem C267_chain_partial (multi : List Nat → Nat → List Nat) (v : VSet) (hv : v.id < 2 ^ 64) (xs : List Blk)
    (hn : changes xs < 2 ^ 64) (ha : ∀ x ∈ xs, x.answers = true) (i : Nat) (b : Block) (hb : (produce v xs)[i]? = some b) (k : Nat)
    (hk : IsKey b k) (hr : ∀ r ∈ b.reqs, Signable r) :
    ∃ ws, (run multi start (produce v xs))[i]? = some ws ∧ List.Forall₂ (fun r w => Proper multi b.chain r k w) b.reqs ws :=
  C267_signs_partial multi _ (honest xs v hv hn ha) i b hb k hk hr

/-- And it votes with no other key, under no other number. -/
theorem C267_chain_only_own_partial (multi : List Nat → Nat → List Nat) (v : VSet) (hv : v.id < 2 ^ 64) (xs : List Blk)
    (hn : changes xs < 2 ^ 64) (ha : ∀ x ∈ xs, x.answers = true) (i : Nat) (b : Block) (hb : (produce v xs)[i]? = some b)
    (ws : List Vote) (hws : (run multi start (produce v xs))[i]? = some ws) (w : Vote) (hw : w ∈ ws) :
    IsKey b w.key ∧ ∃ r ∈ b.reqs, Proper multi b.chain r w.key w :=
  C267_only_own_partial multi _ (honest xs v hv hn ha) i b hb ws hws w hw

/-- A history with a change in the second block and two in the last. -/
def xs0 : List Blk :=
  [⟨[], true, some [11], [r0]⟩, ⟨[[21, 12]], true, some [11, 12], [r0]⟩, ⟨[], true, some [12], [r0]⟩,
   ⟨[[31], [12]], true, some [12], [r0]⟩]

example : changes xs0 = 3 ∧ (∀ x ∈ xs0, x.answers = true) ∧
    (run m0 start (produce ⟨0, [11, 21]⟩ xs0)).map (·.map (fun w => (w.setId, w.key))) =
      [[(0, 11)], [(1, 12)], [(1, 12)], [(3, 12)]] := by decide +kernel

/-- A chain in which one number named two sets would mislead the node: the wrap of the number is the only way there. -/
example : (finalise ⟨2 ^ 64 - 1, [11]⟩ [12]).id = 0 := by decide +kernel

end Verif.SignKeys
