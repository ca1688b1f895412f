import Verif.Precompile.Model

/-!
# Properties C149–C151: built-in contracts have one address each, calls to them are guarded
-/

namespace Verif.Precompile

/-! ## Specification -/

/-- Which built-in contract a user finds at an address. -/
def Serves (w : World) (a : Nat) : Service → Prop
  | .standard n => a = n ∧ (1 ≤ n ∧ n ≤ 9 ∨ n = 1024 ∨ n = 1026)
  | .nft => a = 1721
  | .sft => a = 1731
  | .market => a = 1741
  | .peg => a = 1939
  | .dex => a = 0xDDDD
  | .registrar => a = 0xFFFF
  | .erc721 id => w.nfts id = true ∧ id < 2 ^ 32 ∧ ∃ tail, tail < 2 ^ 96 ∧ a = 0xAAAAAAAA * 2 ^ 128 + id * 2 ^ 96 + tail
  | .erc1155 id => w.sfts id = true ∧ id < 2 ^ 32 ∧ ∃ tail, tail < 2 ^ 96 ∧ a = 0xBBBBBBBB * 2 ^ 128 + id * 2 ^ 96 + tail
  | .erc20 id => w.assets id = true ∧ id < 2 ^ 32 ∧ ∃ tail, tail < 2 ^ 96 ∧ a = 0xCCCCCCCC * 2 ^ 128 + id * 2 ^ 96 + tail
  | .futurepass b => b = a ∧ 0xFFFFFFFF * 2 ^ 128 ≤ a ∧ a < 2 ^ 160

/-! ## C149: addresses -/

/-- C149: the contract address of a collection or asset leads back to it. -/
theorem C149_roundtrip {pre id : Nat} (hid : id < 2 ^ 32) : decode pre (encode pre id) = some id := by
  unfold decode encode
  rw [if_pos (by omega)]
  congr 1
  omega

/-- C149: no two collections or assets share a contract address. -/
theorem C149_injective {p q i j : Nat} (hi : i < 2 ^ 32) (hj : j < 2 ^ 32) (h : encode p i = encode q j) :
    p = q ∧ i = j := by
  unfold encode at h
  omega

theorem decode_some {pre id : Nat} {a : Nat} : decode pre a = some id ↔
    id < 2 ^ 32 ∧ ∃ tail, tail < 2 ^ 96 ∧ a = pre * 2 ^ 128 + id * 2 ^ 96 + tail := by
  unfold decode
  split
  · rename_i h
    simp only [Option.some.injEq]
    constructor
    · rintro rfl
      exact ⟨by omega, a % 2 ^ 96, by omega, by omega⟩
    · rintro ⟨h1, t, h2, h3⟩
      omega
  · rename_i h
    constructor
    · intro hx; cases hx
    · rintro ⟨h1, t, h2, h3⟩
      omega

theorem tokens_answer {pre : Nat} {live : World → Nat → Bool} {mk : Nat → Service} {w : World} {a : Nat} {svc : Service} :
    (tokens pre live mk).answer w a = some svc ↔ ∃ id, svc = mk id ∧ live w id = true ∧ id < 2 ^ 32 ∧
      ∃ tail, tail < 2 ^ 96 ∧ a = pre * 2 ^ 128 + id * 2 ^ 96 + tail := by
  unfold Frag.answer tokens
  dsimp only
  cases hd : decode pre a with
  | none =>
    constructor
    · intro h
      split at h <;> cases h
    · rintro ⟨id, _, _, h⟩
      rw [decode_some.2 h] at hd
      cases hd
  | some id =>
    have hc : a / 2 ^ 128 = pre := by
      obtain ⟨_, t, _, h⟩ := decode_some.1 hd
      have := (decode_some.1 hd).1
      omega
    rw [if_pos (by simpa using hc)]
    dsimp only
    split
    · rename_i hl
      simp only [Option.some.injEq]
      constructor
      · rintro rfl
        exact ⟨id, rfl, hl, decode_some.1 hd⟩
      · rintro ⟨j, rfl, _, h⟩
        rw [decode_some.2 h] at hd
        cases hd
        rfl
    · rename_i hl
      constructor
      · intro h; cases h
      · rintro ⟨j, rfl, hj, h⟩
        rw [decode_some.2 h] at hd
        cases hd
        exact absurd hj hl

/-- The fragment an address belongs to, whatever exists: its address, or the prefix. -/
def slot (a : Nat) : Nat := if a ≤ 65535 then a else a / 2 ^ 128

/-- How often the contract at an address may run inside itself. -/
def nesting (a : Nat) : Nat := if a / 2 ^ 128 = 0xFFFFFFFF then 1 else 0

theorem covers_slot {a : Nat} : ∀ f ∈ frags, f.covers a = true → f.tag = slot a ∧ f.limit = nesting a := by
  simp only [frags, low, List.map_cons, List.map_nil, List.cons_append, List.nil_append, List.forall_mem_cons, inRange,
    fixed, tokens, futurepasses, Bool.and_eq_true, decide_eq_true_eq, slot, nesting, prefix721, prefix1155, prefix20, prefixFp]
  refine ⟨?_, ?_, ?_, ?_, ?_, ?_, ?_, ?_, ?_, ?_, ?_, ?_, ?_, ?_, ?_, ?_, ?_, ?_, ?_, ?_, ?_, fun _ h => nomatch h⟩
  all_goals
    intro h
    try replace h := of_decide_eq_true h
    constructor <;> split <;> omega

theorem frags_tags : (frags.map Frag.tag).Nodup := by decide +kernel

theorem find_some {w : World} {a : Nat} {f : Frag} {svc : Service} : ∀ {fs : List Frag},
    find w a fs = some (f, svc) → f ∈ fs ∧ f.answer w a = some svc
  | [], h => nomatch h
  | g :: gs, h => by
    unfold find at h
    split at h
    · rename_i s hs
      cases h
      exact ⟨List.mem_cons_self, hs⟩
    · have := find_some h
      exact ⟨List.mem_cons_of_mem _ this.1, this.2⟩

theorem find_none {w : World} {a : Nat} : ∀ {fs : List Frag}, find w a fs = none → ∀ f ∈ fs, f.answer w a = none
  | [], _, _, hf => nomatch hf
  | g :: gs, h, f, hf => by
    unfold find at h
    split at h
    · cases h
    · rename_i hs
      rcases List.mem_cons.1 hf with rfl | hf
      · exact hs
      · exact find_none h f hf

theorem answer_covers {f : Frag} {w : World} {a : Nat} {svc : Service} (h : f.answer w a = some svc) : f.covers a = true := by
  unfold Frag.answer at h
  split at h
  · assumption
  · cases h

/-- C149: at most one of the fragments has anything to do with an address. -/
theorem C149_disjoint {a : Nat} {f g : Frag} (hf : f ∈ frags) (hg : g ∈ frags) (h1 : f.covers a = true)
    (h2 : g.covers a = true) : f = g :=
  List.inj_on_of_nodup_map frags_tags hf hg ((covers_slot f hf h1).1.trans (covers_slot g hg h2).1.symm)

theorem fixed_answer {n : Nat} {svc s : Service} {d : Bool} {w : World} {a : Nat} :
    (inRange 1 65535 (fixed n svc d)).answer w a = some s ↔ (1 ≤ n ∧ n ≤ 65535) ∧ a = n ∧ svc = s := by
  simp only [Frag.answer, inRange, fixed, Bool.and_eq_true, decide_eq_true_eq, Option.ite_none_right_eq_some,
    Option.some.injEq]
  constructor
  · rintro ⟨⟨h, rfl⟩, e⟩; exact ⟨h, rfl, e⟩
  · rintro ⟨h, rfl, e⟩; exact ⟨⟨h, rfl⟩, e⟩

theorem fp_answer {w : World} {a : Nat} {s : Service} :
    futurepasses.answer w a = some s ↔ a / 2 ^ 128 = prefixFp ∧ .futurepass a = s := by
  unfold Frag.answer futurepasses
  dsimp only
  by_cases h : a / 2 ^ 128 = prefixFp
  · rw [if_pos (by exact decide_eq_true h)]
    simp only [Option.some.injEq, h, true_and]
  · rw [if_neg (by simpa using h)]
    simp only [reduceCtorEq, h, false_and]

theorem answer_serves {w : World} {a : Nat} {svc : Service} (ha : a < 2 ^ 160) :
    (∃ f ∈ frags, f.answer w a = some svc) ↔ Serves w a svc := by
  have key : (∃ f ∈ frags, f.answer w a = some svc) ↔
      ((∃ f ∈ low, (inRange 1 65535 f).answer w a = some svc) ∨
      (∃ id, svc = .erc721 id ∧ w.nfts id = true ∧ id < 2 ^ 32 ∧ ∃ tail, tail < 2 ^ 96 ∧ a = prefix721 * 2 ^ 128 + id * 2 ^ 96 + tail) ∨
      (∃ id, svc = .erc1155 id ∧ w.sfts id = true ∧ id < 2 ^ 32 ∧ ∃ tail, tail < 2 ^ 96 ∧ a = prefix1155 * 2 ^ 128 + id * 2 ^ 96 + tail) ∨
      (∃ id, svc = .erc20 id ∧ w.assets id = true ∧ id < 2 ^ 32 ∧ ∃ tail, tail < 2 ^ 96 ∧ a = prefix20 * 2 ^ 128 + id * 2 ^ 96 + tail) ∨
      (a / 2 ^ 128 = prefixFp ∧ .futurepass a = svc)) := by
    rw [← tokens_answer (live := fun w => w.nfts), ← tokens_answer (live := fun w => w.sfts),
      ← tokens_answer (live := fun w => w.assets), ← fp_answer (w := w)]
    simp only [frags, List.mem_append, List.mem_map, List.mem_cons, List.not_mem_nil, or_false]
    constructor
    · rintro ⟨f, (⟨g, hg, rfl⟩ | rfl | rfl | rfl | rfl), h⟩
      · exact .inl ⟨g, hg, h⟩
      · exact .inr (.inl h)
      · exact .inr (.inr (.inl h))
      · exact .inr (.inr (.inr (.inl h)))
      · exact .inr (.inr (.inr (.inr h)))
    · rintro (⟨g, hg, h⟩ | h | h | h | h)
      · exact ⟨_, .inl ⟨g, hg, rfl⟩, h⟩
      · exact ⟨_, .inr (.inl rfl), h⟩
      · exact ⟨_, .inr (.inr (.inl rfl)), h⟩
      · exact ⟨_, .inr (.inr (.inr (.inl rfl))), h⟩
      · exact ⟨_, .inr (.inr (.inr (.inr rfl))), h⟩
  rw [key]
  constructor
  · rintro (⟨f, hf, h⟩ | ⟨id, rfl, h⟩ | ⟨id, rfl, h⟩ | ⟨id, rfl, h⟩ | ⟨h, rfl⟩)
    · simp only [low, List.mem_cons, List.not_mem_nil, or_false] at hf
      rcases hf with rfl | rfl | rfl | rfl | rfl | rfl | rfl | rfl | rfl | rfl | rfl | rfl | rfl | rfl | rfl | rfl | rfl
      all_goals
        obtain ⟨_, rfl, rfl⟩ := fixed_answer.1 h
        simp [Serves]
    · exact h
    · exact h
    · exact h
    · unfold prefixFp at h
      exact ⟨rfl, by omega, ha⟩
  · intro h
    cases svc with
    | standard n =>
      obtain ⟨rfl, h⟩ := h
      refine .inl ⟨fixed a (.standard a) (decide (a ≤ 9)), ?_, fixed_answer.2 ⟨by omega, rfl, rfl⟩⟩
      have h' : a = 1 ∨ a = 2 ∨ a = 3 ∨ a = 4 ∨ a = 5 ∨ a = 6 ∨ a = 7 ∨ a = 8 ∨ a = 9 ∨ a = 1024 ∨ a = 1026 := by omega
      rcases h' with rfl | rfl | rfl | rfl | rfl | rfl | rfl | rfl | rfl | rfl | rfl <;> simp [low]
    | nft => exact .inl ⟨fixed 1721 .nft false, by simp [low], fixed_answer.2 ⟨by omega, h, rfl⟩⟩
    | sft => exact .inl ⟨fixed 1731 .sft false, by simp [low], fixed_answer.2 ⟨by omega, h, rfl⟩⟩
    | peg => exact .inl ⟨fixed 1939 .peg false, by simp [low], fixed_answer.2 ⟨by omega, h, rfl⟩⟩
    | dex => exact .inl ⟨fixed 56797 .dex false, by simp [low], fixed_answer.2 ⟨by omega, h, rfl⟩⟩
    | registrar => exact .inl ⟨fixed 65535 .registrar false, by simp [low], fixed_answer.2 ⟨by omega, h, rfl⟩⟩
    | market => exact .inl ⟨fixed 1741 .market false, by simp [low], fixed_answer.2 ⟨by omega, h, rfl⟩⟩
    | erc721 id => exact .inr (.inl ⟨id, rfl, h⟩)
    | erc1155 id => exact .inr (.inr (.inl ⟨id, rfl, h⟩))
    | erc20 id => exact .inr (.inr (.inr (.inl ⟨id, rfl, h⟩)))
    | futurepass b =>
      obtain ⟨rfl, h⟩ := h
      refine .inr (.inr (.inr (.inr ⟨?_, rfl⟩)))
      unfold prefixFp
      omega

/-- C149: what runs at an address is exactly what the specification says, and there is only one candidate. -/
theorem C149_serves {w : World} {a : Nat} {svc : Service} (ha : a < 2 ^ 160) :
    (∃ f, find w a frags = some (f, svc)) ↔ Serves w a svc := by
  rw [← answer_serves ha]
  constructor
  · rintro ⟨f, h⟩
    exact ⟨f, find_some h⟩
  · rintro ⟨f, hf, h⟩
    cases hx : find w a frags with
    | none => rw [find_none hx f hf] at h; cases h
    | some y =>
      obtain ⟨g, s⟩ := y
      obtain ⟨hg, hs⟩ := find_some hx
      have e := C149_disjoint hf hg (answer_covers h) (answer_covers hs)
      subst e
      rw [hs] at h
      cases h
      exact ⟨_, rfl⟩

/-- C149: an address serves at most one contract. -/
theorem C149_unique {w : World} {a : Nat} {s t : Service} (ha : a < 2 ^ 160) (hs : Serves w a s) (ht : Serves w a t) :
    s = t := by
  obtain ⟨f, hf⟩ := (C149_serves ha).2 hs
  obtain ⟨g, hg⟩ := (C149_serves ha).2 ht
  rw [hf] at hg
  cases hg
  rfl

/-- C149: the address that the chain tells for a collection or asset runs its contract. -/
theorem C149_canonical {w : World} {id : Nat} (hid : id < 2 ^ 32) :
    (w.nfts id = true → Serves w (encode prefix721 id) (.erc721 id)) ∧
    (w.sfts id = true → Serves w (encode prefix1155 id) (.erc1155 id)) ∧
    (w.assets id = true → Serves w (encode prefix20 id) (.erc20 id)) :=
  ⟨fun h => ⟨h, hid, 0, by omega, by unfold encode prefix721; omega⟩,
    fun h => ⟨h, hid, 0, by omega, by unfold encode prefix1155; omega⟩,
    fun h => ⟨h, hid, 0, by omega, by unfold encode prefix20; omega⟩⟩

/-- C149, "a collection has one address", is false: each of 2^96 addresses is the contract of a collection. -/
theorem C149_refuted {w : World} {id tail : Nat} (h : w.nfts id = true) (hid : id < 2 ^ 32) (ht : tail < 2 ^ 96) :
    (∃ f, find w (encode prefix721 id + tail) frags = some (f, .erc721 id)) ∧
    (tail ≠ 0 → encode prefix721 id + tail ≠ encode prefix721 id) := by
  refine ⟨(C149_serves ?_).2 ⟨h, hid, tail, ht, by unfold encode prefix721; omega⟩, by omega⟩
  unfold encode prefix721
  omega

def w0 : World := ⟨fun i => decide (i = 100), fun i => decide (i = 1124), fun i => decide (i < 3)⟩

example : (find w0 (0xAAAAAAAA00000064000000000000000000000000) frags).map Prod.snd = some (.erc721 100) ∧
    (find w0 (0xAAAAAAAA00000064000000000000000000000007) frags).map Prod.snd = some (.erc721 100) ∧
    (find w0 (0xAAAAAAAA00000065000000000000000000000000) frags).map Prod.snd = none ∧
    (find w0 (0xBBBBBBBB00000464000000000000000000000000) frags).map Prod.snd = some (.erc1155 1124) ∧
    (find w0 0xDDDD frags).map Prod.snd = some .dex := by decide +kernel

/-! ## C150: nesting -/

/-- C150: whatever is called in a transaction and whatever comes and goes in the meantime, the levels end as they were:
no contract is left locked. -/
theorem C150_balanced : ∀ (p : Prog) (w : World) (l : Levels), (run p w l).2.1 = l
  | .stop, _, _ => rfl
  | .change w' next, _, l => C150_balanced next w' l
  | .deploy body next, w, l => C150_balanced next _ l
  | .call code ctx body next, w, l => by
    unfold run
    split
    · dsimp only
      rw [C150_balanced next, C150_balanced body]
    · split
      · exact C150_balanced next w l
      · split
        · exact C150_balanced next w l
        · dsimp only
          rw [C150_balanced next, C150_balanced body]
          funext k
          by_cases hk : k = (‹Frag›.tag, code)
          · subst hk
            rw [upd_same, upd_same]
            omega
          · rw [upd_ne _ _ hk, upd_ne _ _ hk]

/-- A contract that no call is running in answers a plain call, whatever the transaction did before. -/
theorem C150_answers {p : Prog} {w : World} {a : Nat} {svc : Service} (ha : a < 2 ^ 160)
    (hs : Serves (run p w (fun _ => 0)).1 a svc) :
    ∃ evs, (run (.call a a .stop .stop) (run p w (fun _ => 0)).1 (run p w (fun _ => 0)).2.1).2.2 = .enter svc a a :: evs := by
  obtain ⟨f, hf⟩ := (C149_serves ha).2 hs
  rw [C150_balanced]
  unfold run
  rw [hf]
  dsimp only
  rw [if_neg (by simp), if_neg (by omega)]
  exact ⟨_, rfl⟩

/-- How many calls to the contract at `a` are running after the events, if `k` were before. -/
def running (a : Nat) : Nat → List Ev → Nat
  | k, [] => k
  | k, .enter _ b _ :: t => running a (if b = a then k + 1 else k) t
  | k, .leave b :: t => running a (if b = a then k - 1 else k) t

theorem running_append {a : Nat} : ∀ (s t : List Ev) (k : Nat), running a k (s ++ t) = running a (running a k s) t
  | [], _, _ => rfl
  | .enter _ _ _ :: s, t, _ => running_append s t _
  | .leave _ :: s, t, _ => running_append s t _

/-- At no time more than `m` calls to the contract at `a` are running. -/
def Within (a : Nat) (m k : Nat) (t : List Ev) : Prop := ∀ s r, t = s ++ r → running a k s ≤ m

theorem Within.nil {a : Nat} {m k : Nat} (h : k ≤ m) : Within a m k [] := by
  intro s r e
  cases s with
  | nil => exact h
  | cons x xs => cases e

theorem Within.cons {a : Nat} {m k : Nat} {e : Ev} {t : List Ev} (h0 : k ≤ m) (h : Within a m (running a k [e]) t) :
    Within a m k (e :: t) := by
  intro s r he
  cases s with
  | nil => exact h0
  | cons x xs =>
    cases he
    have := h xs r rfl
    rw [← running_append] at this
    exact this

theorem Within.append {a : Nat} {m : Nat} : ∀ {s t : List Ev} {k : Nat}, Within a m k s → Within a m (running a k s) t →
    Within a m k (s ++ t)
  | [], _, _, _, h => h
  | e :: s, t, k, h, h2 => by
    refine Within.cons (h [] (e :: s) rfl) ?_
    refine Within.append (s := s) ?_ ?_
    · intro u v huv
      have := h (e :: u) v (by rw [huv]; rfl)
      rw [show e :: u = [e] ++ u from rfl, running_append] at this
      exact this
    · rw [← running_append]
      exact h2

/-- No futurepass creates a contract. -/
def Plain : Prog → Prop
  | .stop => True
  | .call _ _ body next => Plain body ∧ Plain next
  | .deploy _ _ => False
  | .change _ next => Plain next

theorem within_run {a : Nat} : ∀ (p : Prog) (w : World) (l : Levels), Plain p → l (slot a, a) ≤ nesting a + 1 →
    Within a (nesting a + 1) (l (slot a, a)) (run p w l).2.2 ∧ running a (l (slot a, a)) (run p w l).2.2 = l (slot a, a)
  | .stop, _, _, _, h => ⟨Within.nil h, rfl⟩
  | .change w' next, _, l, hp, h => within_run next w' l hp h
  | .deploy _ _, _, _, hp, _ => hp.elim
  | .call code ctx body next, w, l, hp, h => by
    unfold run
    split
    · dsimp only
      have hb := within_run body w l hp.1 h
      have hl := C150_balanced body w l
      have hn := within_run next (run body w l).1 (run body w l).2.1 hp.2 (by rw [hl]; exact h)
      rw [hl] at hn
      rw [hl]
      refine ⟨Within.append hb.1 (by rw [hb.2]; exact hn.1), ?_⟩
      rw [running_append, hb.2, hn.2]
    · rename_i f svc hf
      split
      · exact within_run next w l hp.2 h
      · split
        · exact within_run next w l hp.2 h
        · rename_i hlev
          dsimp only
          obtain ⟨hmem, hans⟩ := find_some hf
          obtain ⟨htag, hlim⟩ := covers_slot (a := code) f hmem (answer_covers hans)
          generalize hl1 : upd l (f.tag, code) (l (f.tag, code) + 1) = l1
          have hbal := C150_balanced body w l1
          rw [hbal]
          have hl2 : upd l1 (f.tag, code) (l1 (f.tag, code) - 1) = l := by
            rw [← hl1]
            funext k
            by_cases hk : k = (f.tag, code)
            · subst hk
              rw [upd_same, upd_same]
              omega
            · rw [upd_ne _ _ hk, upd_ne _ _ hk]
          rw [hl2]
          have hn := within_run next (run body w l1).1 l hp.2 h
          have hone : l1 (slot a, a) = running a (l (slot a, a)) [.enter svc code ctx] := by
            rw [← hl1]
            simp only [running]
            split
            · rename_i e
              subst e
              rw [htag, upd_same]
            · rename_i e
              rw [upd_ne]
              intro hx
              exact e (Prod.mk.inj hx).2.symm
          have hle : l1 (slot a, a) ≤ nesting a + 1 := by
            rw [hone]
            simp only [running]
            split
            · rename_i e
              subst e
              rw [← htag, ← hlim]
              omega
            · exact h
          have hb := within_run body w l1 hp.1 hle
          have hdown : running a (l1 (slot a, a)) [.leave code] = l (slot a, a) := by
            rw [hone]
            simp only [running]
            split
            · omega
            · rfl
          constructor
          · refine Within.append (s := .enter svc code ctx :: (run body w l1).2.2) (Within.cons h ?_) ?_
            · rw [← hone]; exact hb.1
            · rw [show (Ev.enter svc code ctx :: (run body w l1).2.2) = [.enter svc code ctx] ++ (run body w l1).2.2 from rfl,
                running_append, ← hone, hb.2]
              exact Within.cons hle (by rw [hdown]; exact hn.1)
          · rw [show (Ev.enter svc code ctx :: (run body w l1).2.2 ++ Ev.leave code :: (run next (run body w l1).1 l).2.2) =
                [.enter svc code ctx] ++ ((run body w l1).2.2 ++ ([.leave code] ++ (run next (run body w l1).1 l).2.2)) from by simp,
              running_append, ← hone, running_append, hb.2, running_append, hdown, hn.2]

/-- C150 (partial): if no futurepass creates a contract in the transaction, then at no time more than one call runs at an
address of a built-in contract (two for a futurepass). Missing: see `C150_create_refuted` for creations, and
`C150_alias_refuted` for calls to one collection under different addresses. -/
theorem C150_nesting_partial {p : Prog} {w : World} (hp : Plain p) (a : Nat) :
    ∀ s r, events p w = s ++ r → running a 0 s ≤ if a / 2 ^ 128 = 0xFFFFFFFF then 2 else 1 := by
  intro s r e
  have := (within_run (a := a) p w (fun _ => 0) hp (Nat.zero_le _)).1 s r e
  unfold nesting at this
  split at this <;> split <;> omega

/-- The contract of collection 100 and another address of it. -/
def coll : Nat := 0xAAAAAAAA00000064000000000000000000000000
def fp : Nat := 0xFFFFFFFF00000000000000000000000000000001

/-- Non-vacuity: a nested call is refused, the futurepass may be nested once. -/
example : events (.call coll coll (.call 5000000 5000000 (.call coll coll .stop .stop) .stop) .stop) w0 =
      [.enter (.erc721 100) coll coll, .leave coll] ∧
    events (.call fp fp (.call fp fp (.call fp fp .stop .stop) .stop) .stop) w0 =
      [.enter (.futurepass fp) fp fp, .enter (.futurepass fp) fp fp, .leave fp, .leave fp] := by decide +kernel

/-- C150 is false in general: a receiver of a token of collection 100 has its futurepass create a contract, and the
constructor calls the contract of the collection, which is still waiting. -/
theorem C150_create_refuted : ∃ p w s r, events p w = s ++ r ∧ running coll 0 s = 2 :=
  ⟨.call coll coll (.call 5000000 5000000 (.call fp fp (.deploy (.call coll coll .stop .stop) .stop) .stop) .stop) .stop, w0,
    [.enter (.erc721 100) coll coll, .enter (.futurepass fp) fp fp, .enter (.erc721 100) coll coll],
    [.leave coll, .leave fp, .leave coll], by decide +kernel, by decide +kernel⟩

/-- C150 is false also without creations, if it is about collections instead of addresses: the contract of collection 100
runs twice at the same time, once under another address. -/
theorem C150_alias_refuted : ∃ p w, Plain p ∧ events p w =
    [.enter (.erc721 100) coll coll, .enter (.erc721 100) (coll + 1) (coll + 1), .leave (coll + 1), .leave coll] :=
  ⟨.call coll coll (.call 5000000 5000000 (.call (coll + 1) (coll + 1) .stop .stop) .stop) .stop, w0,
    ⟨⟨⟨trivial, trivial⟩, trivial⟩, trivial⟩, by decide +kernel⟩

/-! ## C151: borrowed code -/

/-- C151 (partial): a built-in contract runs in the name of another address (DELEGATECALL, CALLCODE) only if it is one of
the nine Ethereum functions or a futurepass. Missing: futurepasses, see `C151_refuted`. -/
theorem C151_delegate_partial : ∀ (p : Prog) (w : World) (l : Levels) (svc : Service) (code ctx : Nat),
    .enter svc code ctx ∈ (run p w l).2.2 → code ≠ ctx →
    (∃ n, svc = .standard n ∧ 1 ≤ n ∧ n ≤ 9) ∨ ∃ a, svc = .futurepass a
  | .stop, _, _, _, _, _, h, _ => nomatch h
  | .change w' next, _, l, svc, code, ctx, h, hne => C151_delegate_partial next w' l svc code ctx h hne
  | .deploy body next, w, l, svc, code, ctx, h, hne => by
    simp only [run, List.mem_append] at h
    rcases h with h | h
    · exact C151_delegate_partial body _ _ _ _ _ h hne
    · exact C151_delegate_partial next _ _ _ _ _ h hne
  | .call c x body next, w, l, svc, code, ctx, h, hne => by
    unfold run at h
    split at h
    · simp only [List.mem_append] at h
      rcases h with h | h
      · exact C151_delegate_partial body _ _ _ _ _ h hne
      · exact C151_delegate_partial next _ _ _ _ _ h hne
    · rename_i f s hf
      split at h
      · exact C151_delegate_partial next _ _ _ _ _ h hne
      · rename_i hd
        split at h
        · exact C151_delegate_partial next _ _ _ _ _ h hne
        · simp only [List.cons_append, List.mem_cons, List.mem_append] at h
          rcases h with h | h | h | h
          · cases h
            have hdel : f.delegate = true := by
              cases hx : f.delegate with
              | true => rfl
              | false => exact absurd ⟨hx, hne⟩ hd
            obtain ⟨hmem, hans⟩ := find_some hf
            revert hmem hdel hans
            clear hd hf
            revert f
            simp only [frags, low, List.map_cons, List.map_nil, List.cons_append, List.nil_append, List.mem_cons,
              List.not_mem_nil, or_false]
            rintro f - h1 h2 h3
            rcases h2 with rfl | rfl | rfl | rfl | rfl | rfl | rfl | rfl | rfl | rfl | rfl | rfl | rfl | rfl | rfl | rfl | rfl | rfl | rfl | rfl | rfl
            all_goals first
              | (obtain ⟨_, _, rfl⟩ := fixed_answer.1 h3
                 exact .inl ⟨_, rfl, by omega, by omega⟩)
              | (obtain ⟨_, rfl⟩ := fp_answer.1 h3
                 exact .inr ⟨_, rfl⟩)
              | cases h1
          · exact C151_delegate_partial body _ _ _ _ _ h hne
          · cases h
          · exact C151_delegate_partial next _ _ _ _ _ h hne

/-- C151 is false for futurepasses: contract code runs a futurepass in its own name. What it can do with that is the
subject of C104. -/
theorem C151_refuted : ∃ p w, events p w = [.enter (.futurepass fp) fp 5000000, .leave fp] :=
  ⟨.call fp 5000000 .stop .stop, w0, by decide +kernel⟩

/-- Non-vacuity: token contracts refuse, the Ethereum functions do not. -/
example : events (.call coll 5000000 .stop (.call 1 5000000 .stop (.call 0xDDDD 5000000 .stop .stop))) w0 =
    [.enter (.standard 1) 1 5000000, .leave 1] := by decide +kernel

end Verif.Precompile
