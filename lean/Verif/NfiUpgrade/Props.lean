import Verif.NfiUpgrade.Lemmas

/-!
# Properties of the NFI storage migration

C142: every record is found under its new key, nothing but one record is invented, and the migration runs once.
-/

namespace Verif.NfiUpgrade

variable {V : Type}

/-! ## Keys -/

/-- A hash of 8 bytes. -/
def Hash8 (h : List Nat → List Nat) : Prop := ∀ x, (h x).length = 8

/-- A pair of `u32`. -/
def U32s (t : Nat × Nat) : Prop := t.1 < 4294967296 ∧ t.2 < 4294967296

theorem decodeSub_sub {h : List Nat → List Nat} (hh : Hash8 h) : decodeSub (reverse (sub h)) = some () := by
  unfold sub twox
  rw [reverse_append (hh _)]
  rfl

theorem decode_oldData {h : List Nat → List Nat} (hh : Hash8 h) {t : Nat × Nat} (ht : U32s t) :
    decodeData (oldData h t) = some t := by
  unfold decodeData oldData twox
  rw [List.append_assoc, reverse_append (hh _), List.append_assoc]
  simp only [decodeLe_append (le_length 4 _), Option.bind_eq_bind, Option.bind_some, decodeSub_sub hh]
  rw [de_le 4 _ ht.1, de_le 4 _ ht.2]
  rfl

theorem decode_newData {h : List Nat → List Nat} (hh : Hash8 h) {chain : Nat} (hc : chain < 18446744073709551616)
    {t j : Nat × Nat} (hj : decodeData (newData h chain t) = some j) : j = (chain % 4294967296, chain / 4294967296) := by
  unfold decodeData newData twox at hj
  rw [List.append_assoc, reverse_append (hh _), le_split 4 4, List.append_assoc, List.append_assoc] at hj
  simp only [decodeLe_append (le_length 4 _), Option.bind_eq_bind, Option.bind_some] at hj
  rw [Option.bind_eq_some_iff] at hj
  obtain ⟨_, _, hj⟩ := hj
  have hj := (Option.some.inj hj).symm
  rw [de_mod, de_le 4 _ (by omega)] at hj
  exact hj

theorem newData_inj {h : List Nat → List Nat} (hh : Hash8 h) {chain : Nat} {t t' : Nat × Nat} (ht : U32s t) (ht' : U32s t')
    (e : newData h chain t = newData h chain t') : t = t' := by
  unfold newData twox at e
  have e1 := List.append_cancel_right e
  have e2 := (List.append_inj e1 (by rw [hh, hh])).2
  have e3 := (List.append_inj e2 rfl).2
  have e4 := (List.cons.inj e3).2
  obtain ⟨e5, e6⟩ := List.append_inj e4 (by rw [le_length, le_length])
  have e7 := (List.cons.inj e6).2
  exact Prod.ext (le_inj (w := 4) ht.1 ht'.1 e5) (le_inj (w := 4) ht.2 ht'.2 e7)

theorem oldData_length {h : List Nat → List Nat} (hh : Hash8 h) (t : Nat × Nat) : (oldData h t).length = 25 := by
  unfold oldData sub twox
  have hl : ∀ x, (h x).length = 8 := hh
  simp only [List.length_append, le_length, hl, List.length_cons, List.length_nil]

theorem newData_length {h : List Nat → List Nat} (hh : Hash8 h) (chain : Nat) (t : Nat × Nat) :
    (newData h chain t).length = 35 := by
  unfold newData sub twox
  have hl : ∀ x, (h x).length = 8 := hh
  simp only [List.length_append, le_length, hl, List.length_cons, List.length_nil]

theorem nil_lt {k : Key} (h : k.length ≠ 0) : ([] : Key) < k := by
  cases k with
  | nil => exact absurd rfl h
  | cons a l => exact List.nil_lt_cons a l

theorem decode_oldFlag {h : List Nat → List Nat} (hh : Hash8 h) {id : Nat} (hi : id < 4294967296) :
    decodeFlag (oldFlag h id) = some id := by
  unfold decodeFlag oldFlag twox
  rw [List.append_assoc, reverse_append (hh _)]
  simp only [decodeLe_append (le_length 4 _), Option.bind_eq_bind, Option.bind_some, decodeSub_sub hh]
  rw [de_le 4 _ hi]
  rfl

theorem decode_newFlag {h : List Nat → List Nat} (hh : Hash8 h) {chain id j : Nat}
    (hj : decodeFlag (newFlag h chain id) = some j) : j = chain % 4294967296 := by
  unfold decodeFlag newFlag twox at hj
  rw [List.append_assoc, reverse_append (hh _), le_split 4 4, List.append_assoc, List.append_assoc] at hj
  simp only [decodeLe_append (le_length 4 _), Option.bind_eq_bind, Option.bind_some] at hj
  rw [Option.bind_eq_some_iff] at hj
  obtain ⟨_, _, hj⟩ := hj
  have hj := (Option.some.inj hj).symm
  rw [de_mod] at hj
  exact hj

theorem newFlag_inj {h : List Nat → List Nat} (hh : Hash8 h) {chain i j : Nat} (hi : i < 4294967296) (hj : j < 4294967296)
    (e : newFlag h chain i = newFlag h chain j) : i = j := by
  unfold newFlag twox at e
  have e1 := List.append_cancel_right e
  have e2 := (List.append_inj e1 (by rw [hh, hh])).2
  have e3 := (List.append_inj e2 rfl).2
  exact le_inj (w := 4) hi hj (List.cons.inj e3).2

theorem oldFlag_length {h : List Nat → List Nat} (hh : Hash8 h) (id : Nat) : (oldFlag h id).length = 21 := by
  unfold oldFlag sub twox
  have hl : ∀ x, (h x).length = 8 := hh
  simp only [List.length_append, le_length, hl, List.length_cons, List.length_nil]

theorem newFlag_length {h : List Nat → List Nat} (hh : Hash8 h) (chain id : Nat) : (newFlag h chain id).length = 30 := by
  unfold newFlag sub twox
  have hl : ∀ x, (h x).length = 8 := hh
  simp only [List.length_append, le_length, hl, List.length_cons, List.length_nil]

/-! ## Specification -/

/-- The storage before the upgrade: these records, each under its old key. -/
def asOld {A : Type} (key : A → Key) (l : List (A × V)) : Store V := l.map (fun x => (key x.1, x.2))

/-- The token the new keys are mistaken for when they are read as old keys. -/
def ghost (chain : Nat) : Nat × Nat := (chain % 4294967296, chain / 4294967296)

theorem plan_of {A : Type} {target : Key → Option Key} {key new : A → Key} {decode : Key → Option A} {star : A}
    {l : List (A × V)} {P : A → Prop} {m n : Nat} (hmn : m ≠ n) (hm : m ≠ 0)
    (htarget : ∀ k, target k = (decode k).map new)
    (hdec : ∀ a, P a → decode (key a) = some a) (hnew : ∀ a j, decode (new a) = some j → j = star)
    (hinj : ∀ a b, P a → P b → new a = new b → a = b) (hlen : ∀ a, (key a).length = m) (hlen' : ∀ a, (new a).length = n)
    (hP : ∀ x ∈ l, P x.1) (hPs : P star) (hnd : (l.map Prod.fst).Nodup) (hstar : star ∉ l.map Prod.fst) :
    ∃ nw : Key → Key, Plan target (asOld key l) nw (new star) ∧ ∀ x ∈ l, nw (key x.1) = new x.1 := by
  have hkeys : ∀ k, k ∈ (asOld key l).map Prod.fst ↔ ∃ x ∈ l, k = key x.1 := by
    intro k
    unfold asOld
    rw [List.map_map, List.mem_map]
    exact ⟨fun ⟨x, h1, h2⟩ => ⟨x, h1, h2.symm⟩, fun ⟨x, h1, h2⟩ => ⟨x, h1, h2.symm⟩⟩
  have hnw : ∀ x ∈ l, ((decode (key x.1)).map new).getD [] = new x.1 := by
    intro x hx
    rw [hdec x.1 (hP x hx)]
    rfl
  refine ⟨fun k => ((decode k).map new).getD [], ⟨?_, ?_, ?_, ?_, ?_, ?_, ?_, ?_, ?_⟩, hnw⟩
  · unfold asOld
    rw [List.map_map]
    have : (l.map (Prod.fst ∘ fun x : A × V => (key x.1, x.2))) = (l.map Prod.fst).map key := by
      rw [List.map_map]; rfl
    rw [this]
    refine List.Nodup.map_on ?_ hnd
    intro a ha b hb hab
    obtain ⟨x, hx, rfl⟩ := List.mem_map.mp ha
    obtain ⟨y, hy, rfl⟩ := List.mem_map.mp hb
    have h1 := hdec x.1 (hP x hx)
    rw [hab, hdec y.1 (hP y hy)] at h1
    exact (Option.some.inj h1).symm
  · intro k hk
    obtain ⟨x, _, rfl⟩ := (hkeys k).mp hk
    exact nil_lt (by rw [hlen]; exact hm)
  · intro k hk
    obtain ⟨x, hx, rfl⟩ := (hkeys k).mp hk
    show _ = some (((decode (key x.1)).map new).getD [])
    rw [htarget, hdec x.1 (hP x hx)]
    rfl
  · intro k hk j hj
    obtain ⟨x, hx, rfl⟩ := (hkeys k).mp hk
    change target (((decode (key x.1)).map new).getD []) = some j at hj
    rw [hnw x hx, htarget, Option.map_eq_some_iff] at hj
    obtain ⟨a, h1, rfl⟩ := hj
    rw [hnew _ _ h1]
  · intro j hj
    rw [htarget, Option.map_eq_some_iff] at hj
    obtain ⟨a, h1, rfl⟩ := hj
    rw [hnew _ _ h1]
  · intro k hk j hj e
    obtain ⟨x, hx, rfl⟩ := (hkeys k).mp hk
    obtain ⟨y, hy, rfl⟩ := (hkeys j).mp hj
    change ((decode (key x.1)).map new).getD [] = ((decode (key y.1)).map new).getD [] at e
    rw [hnw x hx, hnw y hy] at e
    rw [hinj _ _ (hP x hx) (hP y hy) e]
  · intro k hk hk'
    obtain ⟨x, hx, rfl⟩ := (hkeys k).mp hk
    change ((decode (key x.1)).map new).getD [] ∈ _ at hk'
    rw [hnw x hx] at hk'
    obtain ⟨y, _, e⟩ := (hkeys _).mp hk'
    have := congrArg List.length e
    rw [hlen', hlen] at this
    exact hmn this.symm
  · intro hk
    obtain ⟨y, _, e⟩ := (hkeys _).mp hk
    have := congrArg List.length e
    rw [hlen', hlen] at this
    exact hmn this.symm
  · intro k hk e
    obtain ⟨x, hx, rfl⟩ := (hkeys k).mp hk
    change ((decode (key x.1)).map new).getD [] = _ at e
    rw [hnw x hx] at e
    exact hstar (List.mem_map.mpr ⟨x, hx, hinj _ _ (hP x hx) hPs e⟩)

/-! ## C142 -/

/-- C142: whatever the hash function, and so the order in which the records are visited, the upgrade of the NFI data ends,
every record is found under its new key with its old value, and the only other record it can have made is one for the token
whose id is the chain id. That token has no record of its own here: its collection id is not one this chain hands out. -/
theorem C142_data {h : List Nat → List Nat} (hh : Hash8 h) {chain : Nat} (hc : chain < 18446744073709551616)
    {l : List ((Nat × Nat) × V)} (hu : ∀ x ∈ l, U32s x.1) (hn : (l.map Prod.fst).Nodup) (hg : ghost chain ∉ l.map Prod.fst)
    {fuel : Nat} (hf : 2 * l.length + 1 < fuel) :
    ∃ s', migrateData h chain fuel (asOld (oldData h) l) = some s' ∧
      (∀ t v, (t, v) ∈ l → get s' (newData h chain t) = some v) ∧
      (∀ k, get s' k ≠ none → (∃ x ∈ l, k = oldData h x.1 ∨ k = newData h chain x.1) ∨ k = newData h chain (ghost chain)) := by
  have hgu : U32s (ghost chain) := ⟨Nat.mod_lt _ (by omega), by
    show chain / 4294967296 < 4294967296
    omega⟩
  obtain ⟨nw, hp, hnw⟩ := plan_of (V := V) (target := fun k => (decodeData k).map (newData h chain)) (key := oldData h)
    (new := newData h chain) (decode := decodeData) (star := ghost chain) (l := l) (P := U32s) (m := 25) (n := 35)
    (by omega) (by omega) (fun _ => rfl) (fun a ha => decode_oldData hh ha) (fun a j hj => decode_newData hh hc hj)
    (fun a b ha hb e => newData_inj hh ha hb e) (oldData_length hh) (newData_length hh chain) hu hgu hn hg
  obtain ⟨s', h1, h2, h3⟩ := iterate_all hp (fuel := fuel) (by unfold asOld; rw [List.length_map]; exact hf)
  refine ⟨s', h1, fun t v ht => ?_, fun k hk => ?_⟩
  · have := (h2 (oldData h t) v (List.mem_map.mpr ⟨(t, v), ht, rfl⟩)).2
    rw [hnw (t, v) ht] at this
    exact this
  · rcases h3 k hk with h4 | ⟨j, h4, rfl⟩ | h4
    · obtain ⟨e, h5, rfl⟩ := List.mem_map.mp h4
      obtain ⟨x, h6, rfl⟩ := List.mem_map.mp h5
      exact Or.inl ⟨x, h6, Or.inl rfl⟩
    · obtain ⟨e, h5, rfl⟩ := List.mem_map.mp h4
      obtain ⟨x, h6, rfl⟩ := List.mem_map.mp h5
      exact Or.inl ⟨x, h6, Or.inr (hnw x h6)⟩
    · exact Or.inr h4

/-- C142: the same for the flags of the collections. -/
theorem C142_flags {h : List Nat → List Nat} (hh : Hash8 h) {chain : Nat}
    {l : List (Nat × V)} (hu : ∀ x ∈ l, x.1 < 4294967296) (hn : (l.map Prod.fst).Nodup)
    (hg : chain % 4294967296 ∉ l.map Prod.fst) {fuel : Nat} (hf : 2 * l.length + 1 < fuel) :
    ∃ s', migrateFlags h chain fuel (asOld (oldFlag h) l) = some s' ∧
      (∀ id v, (id, v) ∈ l → get s' (newFlag h chain id) = some v) ∧
      (∀ k, get s' k ≠ none → (∃ x ∈ l, k = oldFlag h x.1 ∨ k = newFlag h chain x.1) ∨
        k = newFlag h chain (chain % 4294967296)) := by
  obtain ⟨nw, hp, hnw⟩ := plan_of (V := V) (target := fun k => (decodeFlag k).map (newFlag h chain)) (key := oldFlag h)
    (new := newFlag h chain) (decode := decodeFlag) (star := chain % 4294967296) (l := l) (P := fun i => i < 4294967296)
    (m := 21) (n := 30)
    (by omega) (by omega) (fun _ => rfl) (fun a ha => decode_oldFlag hh ha) (fun a j hj => decode_newFlag hh hj)
    (fun a b ha hb e => newFlag_inj hh ha hb e) (oldFlag_length hh) (newFlag_length hh chain) hu (Nat.mod_lt _ (by omega))
    hn hg
  obtain ⟨s', h1, h2, h3⟩ := iterate_all hp (fuel := fuel) (by unfold asOld; rw [List.length_map]; exact hf)
  refine ⟨s', h1, fun t v ht => ?_, fun k hk => ?_⟩
  · have := (h2 (oldFlag h t) v (List.mem_map.mpr ⟨(t, v), ht, rfl⟩)).2
    rw [hnw (t, v) ht] at this
    exact this
  · rcases h3 k hk with h4 | ⟨j, h4, rfl⟩ | h4
    · obtain ⟨e, h5, rfl⟩ := List.mem_map.mp h4
      obtain ⟨x, h6, rfl⟩ := List.mem_map.mp h5
      exact Or.inl ⟨x, h6, Or.inl rfl⟩
    · obtain ⟨e, h5, rfl⟩ := List.mem_map.mp h4
      obtain ⟨x, h6, rfl⟩ := List.mem_map.mp h5
      exact Or.inl ⟨x, h6, Or.inr (hnw x h6)⟩
    · exact Or.inr h4

/-- A toy hash: eight times the sum of the bytes. -/
def hash0 (x : List Nat) : List Nat := List.replicate 8 (x.sum % 256)

theorem hash0_ok : Hash8 hash0 := fun x => List.length_replicate

example : Hash8 hash0 ∧ (∀ x ∈ [((1124, 123), true), ((1124, 556), false)], U32s x.1) ∧
    ghost 7668 ∉ ([((1124, 123), true), ((1124, 556), false)] : List ((Nat × Nat) × Bool)).map Prod.fst ∧
    (([((1124, 123), true), ((1124, 556), false)] : List ((Nat × Nat) × Bool)).map Prod.fst).Nodup := by
  refine ⟨hash0_ok, ?_, ?_, ?_⟩
  · intro x hx
    simp only [List.mem_cons, List.not_mem_nil, or_false] at hx
    unfold U32s
    rcases hx with rfl | rfl <;> decide
  · decide
  · decide

/-- Collection ids of this chain (the parachain id 100 in the low ten bits) are never the chain id 7668 or 7672. -/
theorem ghost_not_ours (i : Nat) : (i <<< 10 ||| 100) ≠ 7668 ∧ (i <<< 10 ||| 100) ≠ 7672 := by
  have key : ∀ x, i <<< 10 ||| 100 = x → x % 1024 = 100 := by
    intro x hx
    rw [← hx, Nat.shiftLeft_eq]
    have := Nat.two_pow_add_eq_or_of_lt (i := 10) (b := 100) (by omega) i
    rw [Nat.mul_comm, ← this]
    omega
  exact ⟨fun h => absurd (key _ h) (by omega), fun h => absurd (key _ h) (by omega)⟩

/-- C142: the upgrade as a whole: from the old storage it ends, with all data and all flags found under their new keys. -/
theorem C142_upgrade {h : List Nat → List Nat} (hh : Hash8 h) {chain : Nat} (hc : chain < 18446744073709551616)
    {l : List ((Nat × Nat) × V)} (hu : ∀ x ∈ l, U32s x.1) (hn : (l.map Prod.fst).Nodup) (hg : ghost chain ∉ l.map Prod.fst)
    {f : List (Nat × Bool)} (hu' : ∀ x ∈ f, x.1 < 4294967296) (hn' : (f.map Prod.fst).Nodup)
    (hg' : chain % 4294967296 ∉ f.map Prod.fst) {fuel : Nat} (hf : 2 * l.length + 1 < fuel) (hf' : 2 * f.length + 1 < fuel) :
    ∃ s', upgrade h chain fuel ⟨0, asOld (oldData h) l, asOld (oldFlag h) f⟩ = some s' ∧
      (∀ t v, (t, v) ∈ l → get s'.data (newData h chain t) = some v) ∧
      (∀ id v, (id, v) ∈ f → get s'.flags (newFlag h chain id) = some v) := by
  obtain ⟨d, h1, h2, _⟩ := C142_data hh hc hu hn hg hf
  obtain ⟨e, h3, h4, _⟩ := C142_flags hh hu' hn' hg' hf'
  refine ⟨⟨1, d, e⟩, ?_, h2, h4⟩
  unfold upgrade
  rw [if_neg (fun hv => hv rfl)]
  dsimp only
  rw [h1, h3]
  rfl

/-- C142: the loop does come across records it has just written, and takes them for old ones: from the record of one token it
makes another one, for the token whose collection id is the chain id. -/
theorem C142_refuted : ∃ (s' : Store Nat), migrateData hash0 7668 10 (asOld (oldData hash0) [((1124, 123), 5)]) = some s' ∧
    get s' (newData hash0 7668 (1124, 123)) = some 5 ∧ ghost 7668 = (7668, 0) ∧
    get s' (newData hash0 7668 (7668, 0)) = some 5 := by
  refine ⟨(migrateData hash0 7668 10 (asOld (oldData hash0) [((1124, 123), 5)])).getD [], ?_, ?_, rfl, ?_⟩ <;> decide +kernel

/-- C142: the upgrade runs once: at any other storage version it does nothing, and it leaves version 1 behind. -/
theorem C142_once {D : Type} {h : List Nat → List Nat} {chain fuel : Nat} {s s' : St D}
    (hs : upgrade h chain fuel s = some s') :
    (s.version ≠ 0 → s' = s) ∧ s'.version ≠ 0 ∧ ∀ chain' fuel', upgrade h chain' fuel' s' = some s' := by
  unfold upgrade at hs
  split at hs
  · rename_i hv
    cases hs
    refine ⟨fun _ => rfl, hv, fun _ _ => ?_⟩
    unfold upgrade
    rw [if_pos hv]
  · rename_i hv
    simp only [Option.bind_eq_bind, Option.bind_eq_some_iff] at hs
    obtain ⟨d, _, f, _, hs⟩ := hs
    cases hs
    refine ⟨fun h => absurd h hv, Nat.one_ne_zero, fun _ _ => ?_⟩
    unfold upgrade
    rw [if_pos Nat.one_ne_zero]

example : (upgrade hash0 7668 10 (⟨0, asOld (oldData hash0) [((1124, 123), 5)], asOld (oldFlag hash0) [(1124, true)]⟩ : St Nat)).isSome
    = true := by decide +kernel

end Verif.NfiUpgrade
