import Verif.SignKeys.Model

/-! # C267: a validator signs with the key the chain expects of them -/

namespace Verif.SignKeys

variable (multi : List Nat → Nat → List Nat)

/-! ## Specification -/

/-- What a bridge contract or the XRP Ledger demands of the vote of key `k` on a request, under the validators `v`. -/
def Proper (v : VSet) (r : Req) (k : Nat) (w : Vote) : Prop :=
  w.event = r.event ∧ w.setId = v.id ∧ w.key = k ∧ w.signature = (k, w.digest) ∧
  (r.xrpl = true → w.digest = multi r.data k) ∧ (r.xrpl = false → w.digest = r.data)

/-- A request that can be signed: those for Ethereum are 32 bytes long, as the runtime makes them (it hashes the message). -/
def Signable (r : Req) : Prop := r.xrpl = false → r.data.length = 32

/-- The runtime answers, one number names one set of validators, and changes are announced in the block they come with. -/
structure Honest (bs : List Block) : Prop where
  answers : ∀ b ∈ bs, b.answers = true
  numbered : ∀ b ∈ bs, ∀ c ∈ bs, b.chain.id = c.chain.id → b.chain = c.chain
  announced : bs.IsChain (fun b c => b.chain ≠ c.chain → c.announces = true)

/-- The key of the node at a block: the first of the validators' keys that it holds. -/
def IsKey (b : Block) (k : Nat) : Prop :=
  ∃ held pre post, b.store = some held ∧ b.chain.keys = pre ++ k :: post ∧ k ∈ held ∧ ∀ x ∈ pre, x ∉ held

/-! ## Lemmas -/

theorem authorityId_some (store : Option (List Nat)) (keys : List Nat) (k : Nat) :
    authorityId store keys = some k ↔
      ∃ held pre post, store = some held ∧ keys = pre ++ k :: post ∧ k ∈ held ∧ ∀ x ∈ pre, x ∉ held := by
  unfold authorityId
  cases store with
  | none => simp
  | some held =>
    simp only [List.find?_eq_some_iff_append]
    constructor
    · rintro ⟨hk, as, bs, he, h⟩
      refine ⟨held, as, bs, rfl, he, by simpa using hk, fun x hx => ?_⟩
      have := h x hx
      simpa using this
    · rintro ⟨held', as, bs, hs, he, hk, h⟩
      cases hs
      refine ⟨by simpa using hk, as, bs, he, fun x hx => ?_⟩
      simpa using h x hx

theorem vote_proper (store : Option (List Nat)) (v : VSet) (k : Nat) (r : Req) (w : Vote)
    (h : vote multi store v k r = some w) : Proper multi v r k w := by
  unfold vote at h
  cases hd : digest multi r k with
  | none => simp [hd] at h
  | some d =>
    simp only [hd] at h
    cases hs : sign store k d with
    | none => simp [hs] at h
    | some s =>
      simp only [hs, Option.some.injEq] at h
      have hs' : s = (k, d) := by
        unfold sign at hs
        cases store with
        | none => simp at hs
        | some held => simp only at hs; split at hs <;> simp_all
      subst h
      refine ⟨rfl, rfl, rfl, hs', fun hx => ?_, fun hx => ?_⟩
      · simp only [digest, hx, if_true, Option.some.injEq] at hd
        exact hd.symm
      · simp only [digest, hx, Bool.false_eq_true, if_false] at hd
        split at hd
        · exact (Option.some.inj hd).symm
        · simp at hd

theorem vote_some (held : List Nat) (v : VSet) (k : Nat) (r : Req) (hk : k ∈ held) (hr : Signable r) :
    ∃ w, vote multi (some held) v k r = some w := by
  unfold vote
  cases hx : r.xrpl with
  | true => simp [digest, hx, sign, hk]
  | false => simp [digest, hx, sign, hk, hr hx]

/-- After a block a node goes by the validators of the chain. -/
theorem learn_eq (v : VSet) (b : Block) (ha : b.answers = true)
    (h : v = start ∨ (b.chain.id = v.id → b.chain = v) ∧ (b.chain ≠ v → b.announces = true)) : learn v b = b.chain := by
  unfold learn
  rw [if_pos ha]
  rcases h with rfl | ⟨h1, h2⟩
  · by_cases h0 : b.chain.id = 0
    · simp [start, h0]
    · simp [start, h0]
  · by_cases he : b.chain = v
    · rw [← he]; simp
    · rw [if_pos (Or.inl (h2 he))]
      by_cases hi : b.chain.id = v.id
      · exact absurd (h1 hi) he
      · rw [if_pos (Or.inl hi)]

theorem run_eq (bs : List Block) : ∀ v : VSet, Honest bs →
    (v = start ∨ ∀ b ∈ bs.head?, (b.chain ≠ v → b.announces = true)) →
    (v = start ∨ ∀ b ∈ bs, b.chain.id = v.id → b.chain = v) →
    run multi v bs = bs.map (fun b => votes multi b.chain b) := by
  induction bs with
  | nil => intro v _ _ _; rfl
  | cons b bs ih =>
    intro v h h1 h2
    have hl : learn v b = b.chain := by
      refine learn_eq v b (h.answers b List.mem_cons_self) ?_
      rcases h1 with h1 | h1
      · exact Or.inl h1
      · rcases h2 with h2 | h2
        · exact Or.inl h2
        · exact Or.inr ⟨h2 b List.mem_cons_self, h1 b (by simp)⟩
    have hc := h.announced
    have hbs : Honest bs :=
      ⟨fun c hcm => h.answers c (List.mem_cons_of_mem _ hcm),
       fun c hcm d hd => h.numbered c (List.mem_cons_of_mem _ hcm) d (List.mem_cons_of_mem _ hd), hc.tail⟩
    simp only [run, hl, List.map_cons]
    congr 1
    refine ih b.chain hbs (Or.inr ?_) (Or.inr ?_)
    · intro c hcm hne
      cases bs with
      | nil => simp at hcm
      | cons d ds =>
        simp only [List.head?_cons, Option.mem_def, Option.some.injEq] at hcm
        subst hcm
        exact (List.isChain_cons_cons.1 hc).1 (Ne.symm hne)
    · intro c hcm hid
      exact h.numbered c (List.mem_cons_of_mem _ hcm) b List.mem_cons_self hid

/-! ## Theorems -/

/-- **C267**: from its start on, through all changes of validators and of its keys, a node that holds a key of the present
validators votes once on each request of each block that can be signed, in order, with the first of their keys that it holds, and
as the other chains demand. -/
theorem C267_signs_partial (bs : List Block) (h : Honest bs) (i : Nat) (b : Block) (hb : bs[i]? = some b) (k : Nat) (hk : IsKey b k)
    (hr : ∀ r ∈ b.reqs, Signable r) :
    ∃ ws, (run multi start bs)[i]? = some ws ∧ List.Forall₂ (fun r w => Proper multi b.chain r k w) b.reqs ws := by
  rw [run_eq multi bs start h (Or.inl rfl) (Or.inl rfl)]
  refine ⟨votes multi b.chain b, by simp [hb], ?_⟩
  have ha := (authorityId_some b.store b.chain.keys k).2 hk
  obtain ⟨held, _, _, hs, _, hkh, _⟩ := hk
  rw [hs] at ha
  simp only [votes, hs, ha]
  clear hb
  revert hr
  generalize b.reqs = rs
  intro hr
  induction rs with
  | nil => exact List.Forall₂.nil
  | cons r rs ih =>
    obtain ⟨w, hw⟩ := vote_some multi held b.chain k r hkh (hr r List.mem_cons_self)
    rw [List.filterMap_cons_some hw]
    exact List.Forall₂.cons (vote_proper multi _ _ _ _ _ hw) (ih fun x hx => hr x (List.mem_cons_of_mem _ hx))

/-- Whatever it handles, a node votes only on requests of the block, with a key that it holds and that is of the validators whose
number it names. -/
theorem C267_only_own_partial (bs : List Block) (h : Honest bs) (i : Nat) (b : Block) (hb : bs[i]? = some b)
    (ws : List Vote) (hws : (run multi start bs)[i]? = some ws) (w : Vote) (hw : w ∈ ws) :
    IsKey b w.key ∧ ∃ r ∈ b.reqs, Proper multi b.chain r w.key w := by
  rw [run_eq multi bs start h (Or.inl rfl) (Or.inl rfl)] at hws
  simp only [List.getElem?_map, hb, Option.map_some, Option.some.injEq] at hws
  subst hws
  unfold votes at hw
  cases ha : authorityId b.store b.chain.keys with
  | none => simp [ha] at hw
  | some k =>
    simp only [ha, List.mem_filterMap] at hw
    obtain ⟨r, hr, hv⟩ := hw
    have hp := vote_proper multi _ _ _ _ _ hv
    have hkk : w.key = k := hp.2.2.1
    rw [hkk]
    exact ⟨(authorityId_some _ _ _).1 ha, r, hr, hp⟩

/-- Keys that the present validators do not have make no difference: old keys and keys of a coming set may stay in the store. -/
theorem C267_other_keys_partial (v : VSet) (b : Block) (held extra : List Nat) (hs : b.store = some held)
    (he : ∀ k ∈ extra, k ∉ v.keys) :
    votes multi v { b with store := some (held ++ extra) } = votes multi v b := by
  have ha : authorityId (some (held ++ extra)) v.keys = authorityId (some held) v.keys := by
    simp only [authorityId]
    have : ∀ l : List Nat, (∀ k ∈ extra, k ∉ l) →
        l.find? (fun k => decide (k ∈ held ++ extra)) = l.find? (fun k => decide (k ∈ held)) := by
      intro l hl
      induction l with
      | nil => rfl
      | cons a l ih =>
        have h1 : a ∉ extra := fun hx => hl a hx List.mem_cons_self
        simp only [List.find?_cons, List.mem_append, h1, or_false]
        rw [← ih (fun k hk hm => hl k hk (List.mem_cons_of_mem _ hm))]
        simp only [List.mem_append]
    exact this _ he
  unfold votes
  simp only [hs, ha]
  cases hk : authorityId (some held) v.keys with
  | none => rfl
  | some k =>
    obtain ⟨held', _, _, hh, _, hkh, _⟩ := (authorityId_some _ _ _).1 hk
    cases hh
    simp only
    congr 1
    funext r
    unfold vote
    simp [sign, hkh]

/-- A node without a key of the validators never votes. -/
theorem C267_passive_partial (v : VSet) (b : Block) (h : ∀ held, b.store = some held → ∀ k ∈ v.keys, k ∉ held) :
    votes multi v b = [] := by
  unfold votes
  cases ha : authorityId b.store v.keys with
  | none => rfl
  | some k =>
    obtain ⟨held, pre, post, hs, hk, hm, _⟩ := (authorityId_some _ _ _).1 ha
    exact absurd hm (h held hs k (by rw [hk]; simp))

/-! ## The hypotheses are met -/

def r0 : Req := ⟨7, true, [1, 2]⟩
def m0 : List Nat → Nat → List Nat := fun d k => d ++ [k]

/-- Validator 11 changes to key 12 with the second set; the node holds both keys from the second block on. -/
def bs0 : List Block :=
  [⟨true, ⟨0, [11, 21]⟩, true, some [11], [r0]⟩, ⟨false, ⟨0, [11, 21]⟩, true, some [11, 12], [r0]⟩,
   ⟨true, ⟨1, [21, 12]⟩, true, some [11, 12], [r0]⟩]

theorem honest0 : Honest bs0 := by
  refine ⟨by decide +kernel, by decide +kernel, ?_⟩
  simp [bs0]

example : (run m0 start bs0).map (·.map (fun w => (w.setId, w.key, w.signature))) =
    [[(0, 11, (11, [1, 2, 11]))], [(0, 11, (11, [1, 2, 11]))], [(1, 12, (12, [1, 2, 12]))]] := by decide +kernel

example : IsKey ⟨true, ⟨1, [21, 12]⟩, true, some [11, 12], [r0]⟩ 12 :=
  ⟨[11, 12], [21], [], rfl, rfl, by decide, by decide⟩

example : ∀ r ∈ [r0], Signable r := by
  intro r hr
  simp only [List.mem_singleton] at hr
  subst hr
  intro h
  cases h

/-! ## What does not hold -/

/-- A validator whose key is on a node that also holds the key of an earlier validator never votes. -/
theorem C267_second_key_refuted :
    ¬ ∀ (multi : List Nat → Nat → List Nat) (bs : List Block), Honest bs → ∀ (b : Block) (held : List Nat) (k : Nat) (r : Req),
      b ∈ bs → b.store = some held → k ∈ held → k ∈ b.chain.keys → r ∈ b.reqs → Signable r →
      ∃ ws ∈ run multi start bs, ∃ w ∈ ws, w.key = k ∧ w.event = r.event := by
  intro h
  have hb : Honest [⟨true, ⟨0, [11, 21]⟩, true, some [11, 21], [r0]⟩] := ⟨by decide, by decide, by simp⟩
  obtain ⟨ws, hw, w, hm, hk, _⟩ := h m0 _ hb _ [11, 21] 21 r0 List.mem_cons_self rfl (by decide) (by decide) (by decide)
    (by intro h; cases h)
  have : ∀ ws ∈ run m0 start [⟨true, ⟨0, [11, 21]⟩, true, some [11, 21], [r0]⟩], ∀ w ∈ ws, w.key ≠ 21 := by decide +kernel
  exact this ws hw w hm hk

/-- If the runtime does not answer at the block of a change (say because a node that catches up has discarded the state of that
block), the node goes on signing for the old validators: it does not ask again. -/
theorem C267_missed_answer_refuted :
    ¬ ∀ (multi : List Nat → Nat → List Nat) (bs : List Block),
      (∀ b ∈ bs, ∀ c ∈ bs, b.chain.id = c.chain.id → b.chain = c.chain) →
      bs.IsChain (fun b c => b.chain ≠ c.chain → c.announces = true) →
      ∀ (i : Nat) (b : Block), bs[i]? = some b → b.answers = true →
      ∀ ws, (run multi start bs)[i]? = some ws → ∀ w ∈ ws, w.setId = b.chain.id := by
  intro h
  have := h m0 [⟨true, ⟨0, [11]⟩, true, some [11, 12], []⟩, ⟨true, ⟨1, [12]⟩, false, some [11, 12], []⟩,
      ⟨false, ⟨1, [12]⟩, true, some [11, 12], [r0]⟩] (by decide) (by simp) 2 _ rfl rfl
      [⟨7, 0, 11, [1, 2, 11], (11, [1, 2, 11])⟩] (by decide +kernel) _ List.mem_cons_self
  exact absurd this (by decide)

end Verif.SignKeys
