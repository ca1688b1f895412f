import Verif.Sign.Lemmas

/-!
# Properties of signatures (C170 to C173)
-/

namespace Verif.Sign

/-- The same transaction: the same call and parameters, for the same version of the same chain. (Arguments and
extensions are encoded one after the other; both are self-delimiting.) -/
structure SameTx (t t' : Tx) : Prop where
  pallet : t'.pallet = t.pallet
  call : t'.call = t.call
  body : t'.args ++ t'.extra = t.args ++ t.extra
  spec : t'.spec = t.spec
  txv : t'.txv = t.txv
  genesis : t'.genesis = t.genesis
  era : t'.era = t.era

theorem encode_same {t t' : Tx} (h : t.WF) (h' : t'.WF) (e : t'.encode = t.encode) : SameTx t t' := by
  unfold Tx.encode at e
  obtain ⟨e1, e⟩ := List.cons.inj e
  obtain ⟨e2, e⟩ := List.cons.inj e
  obtain ⟨e, e3⟩ := List.append_inj' e (by rw [h.era, h'.era])
  obtain ⟨e, e4⟩ := List.append_inj' e (by rw [h.genesis, h'.genesis])
  obtain ⟨e, e5⟩ := List.append_inj' e (by rw [h.txv, h'.txv])
  obtain ⟨e, e6⟩ := List.append_inj' e (by rw [h.spec, h'.spec])
  exact ⟨e1, e2, e, e6, e5, e4, e3⟩

/-- The transaction as the chain with genesis `g` reads it. -/
abbrev Tx.on (t : Tx) (g : Bytes) : Tx := { t with genesis := g }

/-- What an accepted transaction says about the owner of the account: they let the wallet sign this very
transaction, or a text that is its message or the hash of it, or somebody found a collision of the hashes. -/
theorem accepted_cases {c : Cfg} {g : Bytes} {sig : Nat} {t : Tx} {a : Bytes} {acts : List Act}
    (ht : (t.on g).WF) (hw : ∀ act ∈ acts, act.WF) (he : ∀ b, Act.eth b ∈ acts → b.length ≠ 32)
    (hu : Unforged c a acts) (h : accepts c g sig t a = true) :
    (∃ act ∈ acts, ∃ t', act.tx? = some t' ∧ SameTx (t.on g) t') ∨
    (∃ b, Act.text b ∈ acts ∧ (b = (t.on g).message c ∨ b = c.blake ((t.on g).message c) ∨
      personal b = (t.on g).message c)) ∨
    (∃ act ∈ acts, Collision c ((t.on g).hashed c ++ act.hashed c)) := by
  unfold accepts at h
  obtain ⟨act, ha, x, hx, hk⟩ := verify_signed hu h
  have hwa := hw act ha
  generalize hm : (t.on g).message c = m at hx h
  have hml := message_length c ht
  rw [hm] at hml
  -- a collision of blake
  have coll : ∀ y ∈ (t.on g).hashed c, ∀ z ∈ act.hashed c, c.blake y = c.blake z → y ≠ z →
      ∃ act ∈ acts, Collision c ((t.on g).hashed c ++ act.hashed c) := by
    intro y hy z hz hyz hne
    exact ⟨act, ha, y, List.mem_append_left _ hy, z, List.mem_append_right _ hz, hne, Or.inr hyz⟩
  by_cases hxe : act.input c = x
  swap
  · refine Or.inr (Or.inr ⟨act, ha, act.input c, List.mem_append_right _ List.mem_cons_self, x, ?_, hxe, Or.inl hk⟩)
    refine List.mem_append_left _ ?_
    unfold Tx.hashed
    rw [hm]
    exact List.mem_cons_of_mem _ hx
  -- the message of a signed transaction with the same message or hash of it
  have same : ∀ t', act.tx? = some t' → t'.WF → t'.message c = m →
      (∃ act ∈ acts, ∃ t', act.tx? = some t' ∧ SameTx (t.on g) t') ∨
      (∃ act ∈ acts, Collision c ((t.on g).hashed c ++ act.hashed c)) := by
    intro t' h1 h2 h3
    rcases message_inj ht h2 (hm.trans h3.symm) with h4 | ⟨h4, h5⟩
    · exact Or.inl ⟨act, ha, t', h1, encode_same ht h2 h4.symm⟩
    · refine Or.inr (coll _ ?_ _ ?_ h5 h4)
      · exact List.mem_cons_self
      · unfold Act.hashed
        rw [h1]
        exact List.mem_cons_of_mem _ List.mem_cons_self
  have hashes : ∀ t', act.tx? = some t' → t'.WF → c.blake (t'.message c) = c.blake m →
      (∃ act ∈ acts, ∃ t', act.tx? = some t' ∧ SameTx (t.on g) t') ∨
      (∃ act ∈ acts, Collision c ((t.on g).hashed c ++ act.hashed c)) := by
    intro t' h1 h2 h3
    by_cases h4 : t'.message c = m
    · exact same t' h1 h2 h4
    · refine Or.inr (coll m ?_ (t'.message c) ?_ h3.symm (Ne.symm h4))
      · unfold Tx.hashed
        rw [hm]
        simp
      · unfold Act.hashed
        rw [h1]
        unfold Tx.hashed
        simp
  have cross : ∀ t', act.tx? = some t' → t'.WF → c.blake (t'.message c) = m →
      ∃ act ∈ acts, Collision c ((t.on g).hashed c ++ act.hashed c) := by
    intro t' h1 h2 h3
    rcases message_cases c ht with ⟨e1, l1, l2⟩ | ⟨e1, l1, l2⟩
    · have := c.blake_len (t'.message c)
      rw [h3, ← hm, e1] at this
      omega
    · refine coll (t.on g).encode List.mem_cons_self (t'.message c) ?_ (by rw [← e1, hm, h3]) ?_
      · unfold Act.hashed
        rw [h1]
        unfold Tx.hashed
        simp
      · intro e
        have := (message_length c h2).2
        rw [← e] at this
        omega
  have cross' : ∀ t', act.tx? = some t' → t'.WF → t'.message c = c.blake m →
      ∃ act ∈ acts, Collision c ((t.on g).hashed c ++ act.hashed c) := by
    intro t' h1 h2 h3
    rcases message_cases c h2 with ⟨e1, l1, l2⟩ | ⟨e1, l1, l2⟩
    · have := c.blake_len m
      rw [← h3, e1] at this
      omega
    · refine coll m ?_ t'.encode ?_ (by rw [← e1, h3]) ?_
      · unfold Tx.hashed
        rw [hm]
        simp
      · unfold Act.hashed
        rw [h1]
        exact List.mem_cons_of_mem _ List.mem_cons_self
      · intro e
        rw [e] at hml
        omega
  have weak : ∀ {A B C : Prop}, A ∨ C → A ∨ B ∨ C := fun h => h.elim Or.inl (fun h => Or.inr (Or.inr h))
  simp only [List.mem_cons, List.not_mem_nil, or_false] at hx
  cases act with
  | raw t' =>
    have hxe : t'.message c = x := hxe
    have hwt : t'.WF := hwa
    rcases hx with rfl | rfl | rfl
    · exact weak (same t' rfl hwt hxe)
    · exact absurd hxe (message_ne_personal c hwt (by omega))
    · exact absurd hxe (message_ne_personal c hwt (by rw [c.blake_len]; omega))
  | asText t' =>
    have hxe : personal (t'.message c) = x := hxe
    have hwt : t'.WF := hwa
    rcases hx with rfl | rfl | rfl
    · refine absurd (hm.trans hxe.symm) (message_ne_personal c ht ?_)
      have := (message_length c hwt).1
      omega
    · exact weak (same t' rfl hwt (personal_inj hxe))
    · exact Or.inr (Or.inr (cross' t' rfl hwt (personal_inj hxe)))
  | asHash t' =>
    have hxe : personal (c.blake (t'.message c)) = x := hxe
    have hwt : t'.WF := hwa
    rcases hx with rfl | rfl | rfl
    · exact absurd (hm.trans hxe.symm) (message_ne_personal c ht (by rw [c.blake_len]; omega))
    · exact Or.inr (Or.inr (cross t' rfl hwt (personal_inj hxe)))
    · exact weak (hashes t' rfl hwt (personal_inj hxe))
  | text b =>
    have hxe : personal b = x := hxe
    refine Or.inr (Or.inl ⟨b, ha, ?_⟩)
    rcases hx with rfl | rfl | rfl
    · exact Or.inr (Or.inr hxe)
    · exact Or.inl (personal_inj hxe)
    · exact Or.inr (Or.inl (personal_inj hxe))
  | eth b =>
    have hxe : b = x := hxe
    have hwt : EthTx b := hwa
    subst hxe
    rcases hx with rfl | rfl | rfl
    · rcases message_cases c ht with ⟨e1, _, _⟩ | ⟨_, _, l2⟩
      · rw [← hm, e1] at hwt
        exact absurd hwt (encode_not_eth ht)
      · exact absurd (by rw [← hm]; exact l2) (he _ ha)
    · exact absurd hwt (personal_not_eth _)
    · exact absurd hwt (personal_not_eth _)

/-! ## C170: an accepted transaction was signed -/

/-- The owner of the account let their wallet sign transactions only, of this chain or of Ethereum. -/
def OnlyTxs (acts : List Act) : Prop := ∀ b, Act.text b ∉ acts

/-- C170. If the owner of an account let the wallet sign transactions only (of this chain in any of the three
accepted ways, or of Ethereum), every transaction the chain accepts as theirs is one of those, call, parameters,
versions, chain and era alike, or two different strings with the same hash have been found. (Ethereum
transactions of exactly 32 bytes are excluded: one may be the hash of a long transaction.) -/
theorem C170_accepted_was_signed {c : Cfg} {g : Bytes} {sig : Nat} {t : Tx} {a : Bytes} {acts : List Act}
    (ht : (t.on g).WF) (hw : ∀ act ∈ acts, act.WF) (he : ∀ b, Act.eth b ∈ acts → b.length ≠ 32)
    (ho : OnlyTxs acts) (hu : Unforged c a acts) (h : accepts c g sig t a = true) :
    (∃ act ∈ acts, ∃ t', act.tx? = some t' ∧ SameTx (t.on g) t') ∨
    (∃ act ∈ acts, Collision c ((t.on g).hashed c ++ act.hashed c)) := by
  rcases accepted_cases ht hw he hu h with h | ⟨b, hb, _⟩ | h
  · exact Or.inl h
  · exact absurd hb (ho b)
  · exact Or.inr h

/-- C170, the other direction: every way of signing a transaction is accepted, on its chain and for its account. -/
theorem C170_signed_is_accepted {c : Cfg} {sig : Nat} {t : Tx} {pk : Bytes} {act : Act} (h : act.tx? = some t)
    (hs : c.recover sig (c.keccak (act.input c)) = some pk) : accepts c t.genesis sig t (address c pk) = true := by
  have key : verifySig c sig (c.keccak (act.input c)) (address c pk) = true := verifySig_iff.mpr ⟨pk, hs, rfl⟩
  refine verify_iff.mpr ?_
  cases act with
  | raw t' => cases h; exact Or.inl key
  | asText t' => cases h; exact Or.inr (Or.inl key)
  | asHash t' => cases h; exact Or.inr (Or.inr key)
  | text b => cases h
  | eth b => cases h

/-- C170, nobody else's: a signature from which no key of the account is recovered is not accepted. -/
theorem C170_no_signature {c : Cfg} {g : Bytes} {sig : Nat} {t : Tx} {a : Bytes}
    (h : ∀ d pk, c.recover sig d = some pk → address c pk ≠ a) : accepts c g sig t a = false := by
  cases hv : accepts c g sig t a with
  | false => rfl
  | true =>
    rcases verify_iff.mp hv with h1 | h1 | h1 <;>
    · obtain ⟨pk, h2, h3⟩ := verifySig_iff.mp h1
      exact absurd h3 (h _ _ h2)

/-! A case. -/

/-- 32 bytes. -/
def pad (x : Bytes) : Bytes := ((x ++ List.replicate 32 0).take 32).map (· % 256)

theorem pad_len (x : Bytes) : (pad x).length = 32 := by
  unfold pad
  simp

theorem pad_byte (x : Bytes) : ∀ b ∈ pad x, b < 256 := by
  intro b hb
  unfold pad at hb
  obtain ⟨y, _, rfl⟩ := List.mem_map.mp hb
  exact Nat.mod_lt _ (by decide)

/-- Hashes that only cut, and a key that signed one digest. -/
def demoCfg (signed : Bytes) : Cfg where
  keccak := fun x => pad x.reverse
  blake := pad
  keccak_len := fun _ => pad_len _
  keccak_byte := fun _ => pad_byte _
  blake_len := fun _ => pad_len _
  recover := fun _ h => if h = pad signed.reverse then some [7] else none

def demoTx : Tx where
  pallet := 4
  call := 3
  args := [1, 2, 3, 4, 5]
  extra := [0, 0, 0]
  spec := [60, 0, 0, 0]
  txv := [12, 0, 0, 0]
  genesis := List.replicate 32 9
  era := List.replicate 32 8

theorem demoTx_wf : demoTx.WF where
  call := ⟨by decide, fun h => absurd h (by decide), fun h => absurd h (by decide)⟩
  spec := rfl
  txv := rfl
  genesis := rfl
  era := rfl

/-- The message of the demo transaction, whatever the hashes. -/
theorem demo_message (c : Cfg) : demoTx.message c = demoTx.encode := rfl

/-- The account of the demo signs the demo transaction as a text and an Ethereum transaction. -/
def demoActs : List Act := [.asText demoTx, .eth [248, 1, 2]]

def demo1 : Cfg := demoCfg (personal demoTx.encode)

theorem demo1_unforged : Unforged demo1 (address demo1 [7]) demoActs := by
  intro sig h pk h1 _
  refine ⟨.asText demoTx, List.mem_cons_self, ?_⟩
  have h1 : (if h = pad (personal demoTx.encode).reverse then some [7] else none) = some pk := h1
  split at h1
  · rename_i h2; exact h2.symm
  · cases h1

theorem demo1_accepts : accepts demo1 (List.replicate 32 9) 5 demoTx (address demo1 [7]) = true :=
  C170_signed_is_accepted (act := .asText demoTx) (c := demo1) (sig := 5) (pk := [7]) rfl
    (if_pos (e := none) (c := pad (personal demoTx.encode).reverse = pad (personal demoTx.encode).reverse) rfl)

example : (∃ act ∈ demoActs, ∃ t', act.tx? = some t' ∧ SameTx demoTx t') ∨
    (∃ act ∈ demoActs, Collision demo1 (demoTx.hashed demo1 ++ act.hashed demo1)) :=
  C170_accepted_was_signed (g := List.replicate 32 9) (t := demoTx) demoTx_wf
    (by
      intro act ha
      simp only [demoActs, List.mem_cons, List.not_mem_nil, or_false] at ha
      rcases ha with rfl | rfl
      · exact demoTx_wf
      · exact Or.inl ⟨248, [1, 2], rfl, by decide⟩)
    (by
      intro b hb
      simp only [demoActs, List.mem_cons, List.not_mem_nil, or_false] at hb
      rcases hb with hb | hb
      · cases hb
      · cases hb; decide)
    (by
      intro b hb
      simp only [demoActs, List.mem_cons, List.not_mem_nil, or_false] at hb
      rcases hb with hb | hb <;> cases hb)
    demo1_unforged demo1_accepts

example : accepts demo1 (List.replicate 32 9) 5 demoTx (List.replicate 20 1) = false :=
  C170_no_signature (fun d pk h => by
    have h : (if d = pad (personal demoTx.encode).reverse then some [7] else none) = some pk := h
    split at h
    · cases h; decide +kernel
    · cases h)

/-! ## C171: signing a text does not sign a transaction -/

/-- The claim: the owner of an account who lets the wallet sign texts only, none of them the bytes of a
transaction, has not authorised any transaction (short of a collision). -/
def TextsAreHarmless : Prop :=
  ∀ (c : Cfg) (g : Bytes) (sig : Nat) (t : Tx) (a : Bytes) (texts : List Bytes),
    (t.on g).WF → Unforged c a (texts.map .text) → (∀ b ∈ texts, b ≠ (t.on g).encode) →
    (¬ ∃ b ∈ texts, Collision c ((t.on g).hashed c ++ [personal b])) → accepts c g sig t a = false

/-- Every transaction is authorised by some text of 32 bytes, which shows nothing of it. -/
theorem C171_text_authorises {c : Cfg} {t : Tx} : ∃ b : Bytes, b.length = 32 ∧
    ∀ sig pk, c.recover sig (c.keccak (personal b)) = some pk → accepts c t.genesis sig t (address c pk) = true :=
  ⟨c.blake (t.message c), c.blake_len _, fun _ _ h => C170_signed_is_accepted (act := .asHash t) rfl h⟩

/-- C171, partial: the claim for texts that have neither 32 nor 5 bytes. -/
theorem C171_partial {c : Cfg} {g : Bytes} {sig : Nat} {t : Tx} {a : Bytes} {texts : List Bytes}
    (ht : (t.on g).WF) (hu : Unforged c a (texts.map .text)) (hne : ∀ b ∈ texts, b ≠ (t.on g).encode)
    (hl : ∀ b ∈ texts, b.length ≠ 32 ∧ b.length ≠ 5)
    (hc : ¬ ∃ b ∈ texts, Collision c ((t.on g).hashed c ++ [personal b])) : accepts c g sig t a = false := by
  cases hv : accepts c g sig t a with
  | false => rfl
  | true =>
    rcases accepted_cases ht (acts := texts.map .text) (by
        intro act ha
        obtain ⟨b, _, rfl⟩ := List.mem_map.mp ha
        trivial) (by
        intro b hb
        obtain ⟨b', _, h⟩ := List.mem_map.mp hb
        cases h) hu hv with ⟨act, ha, t', h, _⟩ | ⟨b, hb, h⟩ | ⟨act, ha, h⟩
    · obtain ⟨b, _, rfl⟩ := List.mem_map.mp ha
      cases h
    · obtain ⟨b', hb', h'⟩ := List.mem_map.mp hb
      cases h'
      obtain ⟨l1, l2⟩ := hl b hb'
      rcases h with h | h | h
      · rcases message_cases c ht with ⟨e, _, _⟩ | ⟨_, _, l3⟩
        · exact absurd (h.trans e) (hne b hb')
        · rw [← h] at l3; exact absurd l3 l1
      · rw [h] at l1; exact absurd (c.blake_len _) l1
      · by_cases h5 : 6 ≤ b.length
        · exact absurd h.symm (message_ne_personal c ht h5)
        · have h6 := congrArg List.length h
          rw [personal_length] at h6
          have h7 := (message_length c ht).1
          have h8 : (decimal b.length).length ≤ 1 := decimal_length_mono (b := 9) (by omega)
          omega
    · obtain ⟨b, hb, rfl⟩ := List.mem_map.mp ha
      exact absurd ⟨b, hb, h⟩ hc

/-- Hashes that tell strings of different lengths apart, and an owner who signed the text `pad [82]`. -/
def phishCfg : Cfg where
  keccak := fun x => pad [x.length]
  blake := fun x => pad [x.length]
  keccak_len := fun _ => pad_len _
  keccak_byte := fun _ => pad_byte _
  blake_len := fun _ => pad_len _
  recover := fun _ h => if h = pad [(personal (pad [82])).length] then some [7] else none

theorem demo_lengths : demoTx.encode.length = 82 ∧ (personal demoTx.encode).length = 110 ∧
    (personal (pad [82])).length = 60 := by
  have h1 : demoTx.encode.length = 82 := rfl
  have d1 : (decimal 82).length = 2 := by unfold decimal; simp
  have d2 : (decimal 32).length = 2 := by unfold decimal; simp
  refine ⟨h1, ?_, ?_⟩
  · rw [personal_length, h1, d1]
  · rw [personal_length, pad_len, d2]

theorem pad_single {a b : Nat} (ha : a < 256) (hb : b < 256) (h : pad [a] = pad [b]) : a = b := by
  have h : a % 256 :: _ = b % 256 :: _ := h
  have := (List.cons.inj h).1
  omega

/-- C171 is false: the owner signs one text of 32 bytes, and a transaction is accepted as theirs. -/
theorem C171_refuted : ¬ TextsAreHarmless := by
  intro h
  have hs := h phishCfg demoTx.genesis 5 demoTx (address phishCfg [7]) [pad [82]] demoTx_wf
    (by
      intro sig d pk h1 _
      refine ⟨.text (pad [82]), List.mem_cons_self, ?_⟩
      have h1 : (if d = pad [(personal (pad [82])).length] then some [7] else none) = some pk := h1
      split at h1
      · rename_i h2; exact h2.symm
      · cases h1)
    (by
      intro b hb e
      rw [List.mem_singleton.mp hb] at e
      have := congrArg List.length e
      rw [pad_len] at this
      exact absurd this (by decide))
    (by
      rintro ⟨b, hb, x, hx, y, hy, hne, hxy⟩
      obtain ⟨l1, l2, l3⟩ := demo_lengths
      have hxy : pad [x.length] = pad [y.length] := hxy.elim id id
      have key : ∀ z ∈ demoTx.hashed phishCfg ++ [personal b],
          z = demoTx.encode ∨ z = personal demoTx.encode ∨ z = personal (pad [82]) := by
        intro z hz
        rw [List.mem_singleton.mp hb] at hz
        have hz : z ∈ [demoTx.encode, demoTx.encode, personal demoTx.encode, personal (pad [82]),
          personal (pad [82])] := hz
        simp only [List.mem_cons, List.not_mem_nil, or_false] at hz
        tauto
      rcases key x hx with rfl | rfl | rfl <;> rcases key y hy with rfl | rfl | rfl <;>
      first
      | exact hne rfl
      | (have := pad_single (by omega) (by omega) hxy
         omega))
  have ha := C170_signed_is_accepted (c := phishCfg) (sig := 5) (pk := [7]) (act := .asHash demoTx) (t := demoTx) rfl
    (if_pos (e := none) (c := pad [(personal (pad [82])).length] = pad [(personal (pad [82])).length]) rfl)
  rw [hs] at ha
  cases ha

/-- A delegate's consent to a futurepass is no transaction: an account that signed consents only has no
transaction accepted, short of a collision. -/
theorem C171_consent_is_no_transaction {c : Cfg} {g : Bytes} {sig : Nat} {t : Tx} {a : Bytes} {ks : List Consent}
    (ht : (t.on g).WF) (hu : Unforged c a (ks.map (fun k => .text (k.text c))))
    (hc : ¬ ∃ k ∈ ks, Collision c ((t.on g).hashed c ++ [personal (k.text c)])) : accepts c g sig t a = false := by
  have hlen : ∀ k : Consent, (k.text c).length = 64 := by
    intro k
    unfold Consent.text
    rw [hex_length, c.keccak_len]
  have e : ks.map (fun k => Act.text (k.text c)) = (ks.map (fun k => k.text c)).map Act.text := by
    rw [List.map_map]
    rfl
  rw [e] at hu
  refine C171_partial ht hu ?_ ?_ ?_
  · intro b hb e
    obtain ⟨k, _, rfl⟩ := List.mem_map.mp hb
    have := ht.length
    rw [← e, hlen k] at this
    omega
  · intro b hb
    obtain ⟨k, _, rfl⟩ := List.mem_map.mp hb
    rw [hlen k]
    decide
  · rintro ⟨b, hb, h⟩
    obtain ⟨k, hk, rfl⟩ := List.mem_map.mp hb
    exact hc ⟨k, hk, h⟩

/-! ## C172: a transaction of one chain is not one of another -/

/-- C172. A signature of transactions of another chain (with another genesis) is not accepted, short of a
collision. -/
theorem C172_other_chain {c : Cfg} {g : Bytes} {sig : Nat} {t : Tx} {a : Bytes} {acts : List Act}
    (ht : (t.on g).WF) (hw : ∀ act ∈ acts, act.WF) (he : ∀ b, Act.eth b ∈ acts → b.length ≠ 32)
    (ho : OnlyTxs acts) (hg : ∀ act ∈ acts, ∀ t', act.tx? = some t' → t'.genesis ≠ g) (hu : Unforged c a acts)
    (hc : ¬ ∃ act ∈ acts, Collision c ((t.on g).hashed c ++ act.hashed c)) : accepts c g sig t a = false := by
  cases hv : accepts c g sig t a with
  | false => rfl
  | true =>
    rcases C170_accepted_was_signed ht hw he ho hu hv with ⟨act, ha, t', h1, h2⟩ | h
    · exact absurd h2.genesis (hg act ha t' h1)
    · exact absurd h hc

/-- C172. Nor is one of another version of the runtime. -/
theorem C172_other_version {c : Cfg} {g : Bytes} {sig : Nat} {t : Tx} {a : Bytes} {acts : List Act}
    (ht : (t.on g).WF) (hw : ∀ act ∈ acts, act.WF) (he : ∀ b, Act.eth b ∈ acts → b.length ≠ 32)
    (ho : OnlyTxs acts) (hg : ∀ act ∈ acts, ∀ t', act.tx? = some t' → t'.spec ≠ t.spec ∨ t'.txv ≠ t.txv)
    (hu : Unforged c a acts) (hc : ¬ ∃ act ∈ acts, Collision c ((t.on g).hashed c ++ act.hashed c)) :
    accepts c g sig t a = false := by
  cases hv : accepts c g sig t a with
  | false => rfl
  | true =>
    rcases C170_accepted_was_signed ht hw he ho hu hv with ⟨act, ha, t', h1, h2⟩ | h
    · rcases hg act ha t' h1 with h3 | h3
      · exact absurd h2.spec h3
      · exact absurd h2.txv h3
    · exact absurd h hc

/-! ## C173: what a delegate consents to -/

/-- What is hashed for a consent. -/
def Consent.hashed (c : Cfg) (k : Consent) : List Bytes := [k.packed, personal (k.text c)]

/-- The claim: a delegate who signed consents for some chains (the genesis hashes are given) is registered on a
chain only for a futurepass, type and deadline they consented to for this chain. -/
def ConsentBinds : Prop :=
  ∀ (c : Cfg) (g : Bytes) (sig : Nat) (k : Consent) (given : List (Bytes × Consent)),
    k.WF → (∀ x ∈ given, x.2.WF) → Unforged c k.delegate (given.map (fun x => .text (x.2.text c))) →
    (¬ ∃ x ∈ given, Collision c (k.hashed c ++ x.2.hashed c)) → consents c g sig k = true → (g, k) ∈ given

/-- C173, partial: the consent is for the very futurepass, delegate, type and deadline. Missing: the chain. -/
theorem C173_partial {c : Cfg} {g : Bytes} {sig : Nat} {k : Consent} {given : List (Bytes × Consent)}
    (hk : k.WF) (hw : ∀ x ∈ given, x.2.WF) (hu : Unforged c k.delegate (given.map (fun x => .text (x.2.text c))))
    (hc : ¬ ∃ x ∈ given, Collision c (k.hashed c ++ x.2.hashed c)) (h : consents c g sig k = true) :
    ∃ g', (g', k) ∈ given := by
  obtain ⟨pk, h1, h2⟩ := verifySig_iff.mp h
  obtain ⟨act, ha, h3⟩ := hu _ _ _ h1 h2
  obtain ⟨x, hx, rfl⟩ := List.mem_map.mp ha
  have h3 : c.keccak (personal (x.2.text c)) = c.keccak (personal (k.text c)) := h3
  by_cases e : personal (x.2.text c) = personal (k.text c)
  · have e := hex_inj (c.keccak_byte _) (c.keccak_byte _) (personal_inj e)
    by_cases e2 : x.2.packed = k.packed
    · have := packed_inj (hw x hx) hk e2
      exact ⟨x.1, by rw [← this]; exact hx⟩
    · exact absurd ⟨x, hx, x.2.packed, by simp [Consent.hashed], k.packed, by simp [Consent.hashed], e2, Or.inl e⟩ hc
  · exact absurd ⟨x, hx, _, List.mem_append_right _ (by simp [Consent.hashed]), _,
      List.mem_append_left _ (by simp [Consent.hashed]), e, Or.inl h3⟩ hc

def demoConsent : Consent where
  futurepass := List.replicate 20 255
  delegate := List.replicate 20 0
  kind := 1
  deadline := [0, 0, 1, 0]

theorem demoConsent_wf : demoConsent.WF where
  futurepass := rfl
  delegate := rfl
  deadline := rfl

/-- Hashes as in `phishCfg`, and an owner who signed the demo consent. -/
def consentCfg : Cfg where
  keccak := fun x => pad [x.length]
  blake := fun x => pad [x.length]
  keccak_len := fun _ => pad_len _
  keccak_byte := fun _ => pad_byte _
  blake_len := fun _ => pad_len _
  recover := fun _ h => if h = pad [(personal (hex (pad [45]))).length] then some [7] else none

theorem consentCfg_unforged : Unforged consentCfg demoConsent.delegate
    ([((List.replicate 32 9 : Bytes), demoConsent)].map (fun x => .text (x.2.text consentCfg))) := by
  intro sig d pk h1 _
  refine ⟨.text (hex (pad [45])), List.mem_cons_self, ?_⟩
  have h1 : (if d = pad [(personal (hex (pad [45]))).length] then some [7] else none) = some pk := h1
  split at h1
  · rename_i h2; exact h2.symm
  · cases h1

theorem consentCfg_no_collision :
    ¬ ∃ x ∈ [((List.replicate 32 9 : Bytes), demoConsent)], Collision consentCfg
      (demoConsent.hashed consentCfg ++ x.2.hashed consentCfg) := by
  rintro ⟨b, hb, x, hx, y, hy, hne, hxy⟩
  have hxy : pad [x.length] = pad [y.length] := hxy.elim id id
  have l1 : demoConsent.packed.length = 45 := rfl
  have l2 : (personal (demoConsent.text consentCfg)).length = 92 := by
    have d1 : (decimal 64).length = 2 := by unfold decimal; simp
    have : (demoConsent.text consentCfg).length = 64 := rfl
    rw [personal_length, this, d1]
  rw [List.mem_singleton.mp hb] at hx hy
  have key : ∀ z ∈ demoConsent.hashed consentCfg ++ demoConsent.hashed consentCfg,
      z = demoConsent.packed ∨ z = personal (demoConsent.text consentCfg) := by
    intro z hz
    unfold Consent.hashed at hz
    simp only [List.mem_append, List.mem_cons, List.not_mem_nil, or_false] at hz
    tauto
  rcases key x hx with rfl | rfl <;> rcases key y hy with rfl | rfl
  · exact hne rfl
  · have := pad_single (by omega) (by omega) hxy
    omega
  · have := pad_single (by omega) (by omega) hxy
    omega
  · exact hne rfl

theorem consentCfg_consents (g : Bytes) : consents consentCfg g 5 demoConsent = true :=
  verifySig_iff.mpr ⟨[7],
    if_pos (e := none) (c := pad [(personal (hex (pad [45]))).length] = pad [(personal (hex (pad [45]))).length]) rfl,
    by decide +kernel⟩

example : ∃ g', (g', demoConsent) ∈ [((List.replicate 32 9 : Bytes), demoConsent)] :=
  C173_partial (g := []) demoConsent_wf
    (by intro x hx; rw [List.mem_singleton.mp hx]; exact demoConsent_wf) consentCfg_unforged
    consentCfg_no_collision (consentCfg_consents [])

/-- C173 is false: a consent given for one chain is taken on every other chain. -/
theorem C173_refuted : ¬ ConsentBinds := by
  intro h
  have := h consentCfg (List.replicate 32 8) 5 demoConsent [((List.replicate 32 9 : Bytes), demoConsent)]
    demoConsent_wf (by intro x hx; rw [List.mem_singleton.mp hx]; exact demoConsent_wf) consentCfg_unforged
    consentCfg_no_collision (consentCfg_consents _)
  have := Prod.mk.inj (List.mem_singleton.mp this)
  exact absurd this.1 (by decide)

/-! Cases for C171 and C172. -/

/-- Hashes as in `phishCfg`; the owner signed the text `[1, 2, 3]`. -/
def textCfg : Cfg where
  keccak := fun x => pad [x.length]
  blake := fun x => pad [x.length]
  keccak_len := fun _ => pad_len _
  keccak_byte := fun _ => pad_byte _
  blake_len := fun _ => pad_len _
  recover := fun _ h => if h = pad [(personal [1, 2, 3]).length] then some [7] else none

example : accepts textCfg demoTx.genesis 5 demoTx (address textCfg [7]) = false :=
  C171_partial (texts := [[1, 2, 3]]) demoTx_wf
    (by
      intro sig d pk h1 _
      refine ⟨.text [1, 2, 3], List.mem_cons_self, ?_⟩
      have h1 : (if d = pad [(personal [1, 2, 3]).length] then some [7] else none) = some pk := h1
      split at h1
      · rename_i h2; exact h2.symm
      · cases h1)
    (by intro b hb; rw [List.mem_singleton.mp hb]; decide +kernel)
    (by intro b hb; rw [List.mem_singleton.mp hb]; decide)
    (by
      rintro ⟨b, hb, x, hx, y, hy, hne, hxy⟩
      obtain ⟨l1, l2, l3⟩ := demo_lengths
      have l4 : (personal [1, 2, 3]).length = 30 := by
        have d1 : (decimal 3).length = 1 := by unfold decimal; simp
        rw [personal_length]
        show 26 + (decimal 3).length + 3 = 30
        rw [d1]
      have hxy : pad [x.length] = pad [y.length] := hxy.elim id id
      have key : ∀ z ∈ demoTx.hashed textCfg ++ [personal b],
          z = demoTx.encode ∨ z = personal demoTx.encode ∨ z = personal (pad [82]) ∨ z = personal [1, 2, 3] := by
        intro z hz
        rw [List.mem_singleton.mp hb] at hz
        have hz : z ∈ [demoTx.encode, demoTx.encode, personal demoTx.encode, personal (pad [82]),
          personal [1, 2, 3]] := hz
        simp only [List.mem_cons, List.not_mem_nil, or_false] at hz
        tauto
      rcases key x hx with rfl | rfl | rfl | rfl <;> rcases key y hy with rfl | rfl | rfl | rfl <;>
      first
      | exact hne rfl
      | (have := pad_single (by omega) (by omega) hxy
         omega))

instance (c : Cfg) (l : List Bytes) : Decidable (Collision c l) :=
  inferInstanceAs (Decidable (∃ x ∈ l, ∃ y ∈ l, x ≠ y ∧ (c.keccak x = c.keccak y ∨ c.blake x = c.blake y)))

/-- Hashes of length and sum; the owner signed the demo transaction, which is for the chain of genesis 9, 9, …. -/
def chainCfg (signed : Bytes) : Cfg where
  keccak := fun x => pad [x.length, x.sum]
  blake := fun x => pad [x.length, x.sum]
  keccak_len := fun _ => pad_len _
  keccak_byte := fun _ => pad_byte _
  blake_len := fun _ => pad_len _
  recover := fun _ h => if h = pad [signed.length, signed.sum] then some [7] else none

theorem chainCfg_unforged {act : Act} {signed : Bytes} (h : act.input (chainCfg signed) = signed) :
    Unforged (chainCfg signed) (address (chainCfg signed) [7]) [act] := by
  intro sig d pk h1 _
  refine ⟨act, List.mem_cons_self, ?_⟩
  have h1 : (if d = pad [signed.length, signed.sum] then some [7] else none) = some pk := h1
  split at h1
  · rename_i h2; rw [h, h2]; rfl
  · cases h1

example : accepts (chainCfg demoTx.encode) (List.replicate 32 8) 5 demoTx (address (chainCfg demoTx.encode) [7]) = false :=
  C172_other_chain (acts := [.raw demoTx])
    ⟨demoTx_wf.call, rfl, rfl, rfl, rfl⟩
    (by intro act ha; rw [List.mem_singleton.mp ha]; exact demoTx_wf)
    (by intro b hb; cases List.mem_singleton.mp hb)
    (by intro b hb; cases List.mem_singleton.mp hb)
    (by
      intro act ha t' ht
      rw [List.mem_singleton.mp ha] at ht
      cases ht
      decide)
    (chainCfg_unforged rfl)
    (by
      rintro ⟨act, ha, h⟩
      rw [List.mem_singleton.mp ha] at h
      exact absurd h (by decide +kernel))

example : accepts (chainCfg demoTx.encode) demoTx.genesis 5 { demoTx with spec := [61, 0, 0, 0] }
    (address (chainCfg demoTx.encode) [7]) = false :=
  C172_other_version (acts := [.raw demoTx])
    ⟨demoTx_wf.call, rfl, rfl, rfl, rfl⟩
    (by intro act ha; rw [List.mem_singleton.mp ha]; exact demoTx_wf)
    (by intro b hb; cases List.mem_singleton.mp hb)
    (by intro b hb; cases List.mem_singleton.mp hb)
    (by
      intro act ha t' ht
      rw [List.mem_singleton.mp ha] at ht
      cases ht
      exact Or.inl (by decide))
    (chainCfg_unforged rfl)
    (by
      rintro ⟨act, ha, h⟩
      rw [List.mem_singleton.mp ha] at h
      exact absurd h (by decide +kernel))

example : accepts consentCfg demoTx.genesis 5 demoTx demoConsent.delegate = false :=
  C171_consent_is_no_transaction (ks := [demoConsent]) demoTx_wf consentCfg_unforged
    (by
      rintro ⟨k, hk, h⟩
      rw [List.mem_singleton.mp hk] at h
      exact absurd h (by decide +kernel))

end Verif.Sign
