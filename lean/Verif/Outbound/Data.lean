import Verif.Outbound.Spec
import Verif.Abi.Blowup

/-! # Facts about the encoded messages -/

namespace Verif.Outbound

open Verif Abi

/-- An encoding determines the values. -/
theorem layout_inj (ts : Tys) (hp : ts.proper) {v w : ts.Val} (hv : ts.fits v) (hw : ts.fits w)
    (hl : (layout (ts.items v)).length ≤ 4294967291) (h : layout (ts.items v) = layout (ts.items w)) : v = w := by
  refine C160_distinct ts v w hp hv hw 0 0 ?_ ?_
  · unfold callData usizeMax
    rw [List.length_append, be_length]
    omega
  · unfold callData
    rw [h]

theorem req_proper : reqTys.proper := ⟨trivial, trivial, trivial, Nat.le_refl _, Nat.le_refl _, trivial⟩
theorem erc20_proper : erc20Tys.proper := ⟨trivial, Nat.le_refl _, trivial, trivial⟩
theorem nft_proper : nftTys.proper := ⟨trivial, Nat.le_refl _, trivial, trivial⟩
theorem echo_proper : echoTys.proper := ⟨Nat.le_refl _, Nat.le_refl _, trivial, trivial⟩
theorem handover_proper : handoverTys.proper := ⟨trivial, Nat.le_refl _, trivial⟩

theorem u64_256 {n : Nat} (h : n < U64) : n < 2 ^ 256 := by
  unfold U64 at h
  exact Nat.lt_trans h (by norm_num)

theorem u32_256 {n : Nat} (h : n < U32) : n < 2 ^ 256 := by
  unfold U32 at h
  exact Nat.lt_trans h (by norm_num)

theorem padRight_length (bs : List Byte) : (padRight bs).length ≤ bs.length + 31 := by
  unfold padRight
  rw [List.length_append, List.length_replicate]
  have : (32 - bs.length % 32) % 32 ≤ 31 := by omega
  omega

theorem encode_bytes (r : Req) : r.encode =
    word r.source ++ (word r.destination ++ (word 160 ++ (word r.setId ++ (word r.id ++
      (word r.message.length ++ padRight r.message))))) := by
  have h0 : r.encode = layout [(false, word r.source), (false, word r.destination),
      (true, word r.message.length ++ padRight r.message), (false, word r.setId), (false, word r.id)] := rfl
  rw [h0]
  unfold layout
  have h : headsLen [(false, word r.source), (false, word r.destination),
      (true, word r.message.length ++ padRight r.message), (false, word r.setId), (false, word r.id)] = 160 := by
    simp only [headsLen, headLen, List.map_cons, List.map_nil, List.sum_cons, List.sum_nil, word_length]
    rfl
  rw [h]
  simp only [heads, tails, List.append_assoc, List.append_nil]

theorem encode_length (r : Req) (h : r.message.length ≤ maxEthData) : r.encode.length ≤ 3423 := by
  rw [encode_bytes]
  simp only [List.length_append, word_length]
  have := padRight_length r.message
  unfold maxEthData at h
  omega

/-- The text that is hashed determines the request. -/
theorem encode_inj {r p : Req} (hr : ReqFits r) (hp : ReqFits p) (h : r.encode = p.encode) : r = p := by
  have hl := encode_length r hr.message
  have f : ∀ q : Req, ReqFits q → reqTys.fits ((q.source, q.destination, q.message, q.setId, q.id, ()) :
      Nat × Nat × List Byte × Nat × Nat × Unit) := by
    intro q hq
    refine ⟨hq.source, hq.destination, ?_, u64_256 hq.setId, u64_256 hq.id, trivial⟩
    show q.message.length ≤ u32Max
    have := hq.message
    unfold maxEthData at this
    unfold u32Max
    omega
  have e := layout_inj reqTys req_proper (f r hr) (f p hp) (Nat.le_trans hl (by norm_num)) h
  obtain ⟨s1, d1, m1, v1, i1⟩ := r
  obtain ⟨s2, d2, m2, v2, i2⟩ := p
  have e' : (s1, d1, m1, v1, i1, ()) = ((s2, d2, m2, v2, i2, ()) : Nat × Nat × List Byte × Nat × Nat × Unit) := e
  simp only [Prod.mk.injEq] at e'
  obtain ⟨e1, e2, e3, e4, e5, _⟩ := e'
  rw [e1, e2, e3, e4, e5]

theorem three_length (a b c : Nat) : (layout [(false, word a), (false, word b), (false, word c)]).length = 96 := by
  unfold layout
  simp only [heads, tails, List.append_nil, List.length_append, word_length]

theorem erc20_length (w : Erc20Peg.Wd) : (erc20Msg w).length = 96 := three_length _ _ _

theorem echo_length (k n d : Nat) : (echoMsg k n d).length = 96 := three_length _ _ _

theorem erc20_inj {w w' : Erc20Peg.Wd} (hw : WdFits w) (hw' : WdFits w') (h : erc20Msg w = erc20Msg w') : w = w' := by
  have f : ∀ q : Erc20Peg.Wd, WdFits q → erc20Tys.fits ((q.token, q.amount, q.ben, ()) : Nat × Nat × Nat × Unit) :=
    fun q hq => ⟨hq.token, hq.amount, hq.ben, trivial⟩
  have hl : (erc20Msg w).length ≤ 4294967291 := by
    rw [erc20_length]
    norm_num
  have e := layout_inj erc20Tys erc20_proper (f w hw) (f w' hw') hl h
  obtain ⟨t1, x1, b1⟩ := w
  obtain ⟨t2, x2, b2⟩ := w'
  have e' : (t1, x1, b1, ()) = ((t2, x2, b2, ()) : Nat × Nat × Nat × Unit) := e
  simp only [Prod.mk.injEq] at e'
  obtain ⟨e1, e2, e3, _⟩ := e'
  rw [e1, e2, e3]

/-! ## Lists of words -/

theorem words_heads {α : Type} (f : α → Nat) (off : Nat) : ∀ vs : List α,
    (heads off (vs.map fun v => (false, word (f v)))).length = 32 * vs.length ∧
    tails (vs.map fun v => (false, word (f v))) = []
  | [] => ⟨rfl, rfl⟩
  | v :: vs => by
    obtain ⟨h1, h2⟩ := words_heads f off vs
    simp only [List.map_cons, heads, tails, List.length_append, word_length, List.length_cons]
    exact ⟨by omega, h2⟩

theorem words_layout {α : Type} (f : α → Nat) (vs : List α) :
    (layout (vs.map fun v => (false, word (f v)))).length = 32 * vs.length := by
  unfold layout
  obtain ⟨h1, h2⟩ := words_heads f (headsLen (vs.map fun v => (false, word (f v)))) vs
  rw [List.length_append, h1, h2]
  simp

theorem dyn_heads {α : Type} (g : α → List Byte) : ∀ (vs : List α) (off : Nat),
    (heads off (vs.map fun v => (true, g v))).length = 32 * vs.length
  | [], _ => rfl
  | v :: vs, off => by
    simp only [List.map_cons, heads, List.length_append, word_length, List.length_cons]
    rw [dyn_heads g vs]
    omega

theorem dyn_tails {α : Type} (g : α → List Byte) : ∀ vs : List α,
    (tails (vs.map fun v => (true, g v))).length = (vs.map fun v => (g v).length).sum
  | [] => rfl
  | v :: vs => by
    simp only [List.map_cons, tails, List.length_append, List.sum_cons]
    rw [dyn_tails g vs]

/-- How long the announcement of a validator set is. -/
theorem handover_length (addrs : List Nat) (n : Nat) : (handoverMsg addrs n).length = 96 + 32 * addrs.length := by
  have h0 : handoverMsg addrs n = layout [(true, word addrs.length ++ layout (addrs.map fun v => (false, word v))),
      (false, word n)] := rfl
  rw [h0]
  unfold layout
  simp only [heads, tails, List.append_nil, List.length_append, word_length]
  have := words_layout (fun v : Nat => v) addrs
  unfold layout at this
  rw [List.length_append] at this
  omega

/-- How long the message of a withdrawal of NFTs is. -/
theorem nft_length (groups : List (Nat × List Nat)) (dest : Nat) :
    (nftMsg groups dest).length = 160 + 96 * groups.length + 32 * (groups.map fun g => g.2.length).sum := by
  have h0 : nftMsg groups dest = layout [
      (true, word (groups.map Prod.fst).length ++ layout ((groups.map Prod.fst).map fun v => (false, word v))),
      (true, word (groups.map Prod.snd).length ++ layout ((groups.map Prod.snd).map fun l =>
        (true, word l.length ++ layout (l.map fun v => (false, word v))))),
      (false, word dest)] := rfl
  have h1 := words_layout (fun v : Nat => v) (groups.map Prod.fst)
  have h2 : (layout ((groups.map Prod.snd).map fun l : List Nat =>
      (true, word l.length ++ layout (l.map fun v => (false, word v))))).length =
      64 * groups.length + 32 * (groups.map fun g => g.2.length).sum := by
    unfold layout
    rw [List.length_append, dyn_heads, dyn_tails, List.map_map, List.length_map]
    have : ∀ gs : List (Nat × List Nat), (gs.map ((fun l : List Nat => (word l.length ++
        (heads (headsLen (l.map fun v => (false, word v))) (l.map fun v => (false, word v)) ++
          tails (l.map fun v => (false, word v)))).length) ∘ Prod.snd)).sum =
        32 * gs.length + 32 * (gs.map fun g => g.2.length).sum := by
      intro gs
      induction gs with
      | nil => rfl
      | cons g gs ih =>
        have hw := words_layout (fun v : Nat => v) g.2
        unfold layout at hw
        simp only [List.map_cons, List.sum_cons, Function.comp_apply, List.length_append, word_length,
          List.length_cons] at ih hw ⊢
        rw [ih]
        omega
    rw [this]
    omega
  rw [h0, layout]
  simp only [heads, tails, List.append_nil, List.length_append, word_length]
  rw [h1, h2, List.length_map]
  omega

theorem handover_inj {a b : List Nat} {n m : Nat} (ha : ∀ x ∈ a, x < 2 ^ 160) (hb : ∀ x ∈ b, x < 2 ^ 160) (hn : n < U64)
    (hm : m < U64) (hl : (handoverMsg a n).length ≤ maxEthData) (h : handoverMsg a n = handoverMsg b m) :
    a = b ∧ n = m := by
  have hl' := hl
  rw [h] at hl'
  rw [handover_length] at hl hl'
  unfold maxEthData at hl hl'
  have f : ∀ (l : List Nat) (k : Nat), (∀ x ∈ l, x < 2 ^ 160) → k < U64 → 96 + 32 * l.length ≤ 3200 →
      handoverTys.fits ((l, k, ()) : List Nat × Nat × Unit) := by
    intro l k h1 h2 h3
    refine ⟨⟨?_, h1⟩, u64_256 h2, trivial⟩
    show l.length ≤ u32Max
    unfold u32Max
    omega
  have e := layout_inj handoverTys handover_proper (f a n ha hn hl) (f b m hb hm hl')
    (by have := handover_length a n; unfold handoverMsg at this; omega) h
  have e' : (a, n, ()) = ((b, m, ()) : List Nat × Nat × Unit) := e
  obtain ⟨e1, e'⟩ := Prod.mk.inj e'
  exact ⟨e1, (Prod.mk.inj e').1⟩

theorem pair_eta (gs : List (Nat × List Nat)) : (gs.map Prod.fst).zip (gs.map Prod.snd) = gs := by
  induction gs with
  | nil => rfl
  | cons g gs ih => simp only [List.map_cons, List.zip_cons_cons, ih]

theorem nft_inj {a b : List (Nat × List Nat)} {d d' : Nat} (ha : ∀ g ∈ a, g.1 < 2 ^ 160 ∧ ∀ n ∈ g.2, n < 2 ^ 256)
    (hb : ∀ g ∈ b, g.1 < 2 ^ 160 ∧ ∀ n ∈ g.2, n < 2 ^ 256) (hd : d < 2 ^ 160) (hd' : d' < 2 ^ 160)
    (hl : (nftMsg a d).length ≤ maxEthData) (h : nftMsg a d = nftMsg b d') : a = b ∧ d = d' := by
  have hl' := hl
  rw [h] at hl'
  have hlen := hl
  rw [nft_length] at hl hl'
  unfold maxEthData at hl hl' hlen
  have le_sum : ∀ (gs : List (Nat × List Nat)) g, g ∈ gs → g.2.length ≤ (gs.map fun g => g.2.length).sum := by
    intro gs
    induction gs with
    | nil => intro g hg; cases hg
    | cons x xs ih =>
      intro g hg
      simp only [List.map_cons, List.sum_cons]
      rcases List.mem_cons.mp hg with rfl | hg
      · omega
      · have := ih g hg
        omega
  have f : ∀ (l : List (Nat × List Nat)) (k : Nat), (∀ g ∈ l, g.1 < 2 ^ 160 ∧ ∀ n ∈ g.2, n < 2 ^ 256) → k < 2 ^ 160 →
      160 + 96 * l.length + 32 * (l.map fun g => g.2.length).sum ≤ 3200 →
      nftTys.fits ((l.map Prod.fst, l.map Prod.snd, k, ()) : List Nat × List (List Nat) × Nat × Unit) := by
    intro l k h1 h2 h3
    refine ⟨⟨?_, ?_⟩, ⟨?_, ?_⟩, h2, trivial⟩
    · show (l.map Prod.fst).length ≤ u32Max
      rw [List.length_map]
      unfold u32Max
      omega
    · intro v hv
      obtain ⟨g, hg, rfl⟩ := List.mem_map.mp hv
      exact (h1 g hg).1
    · show (l.map Prod.snd).length ≤ u32Max
      rw [List.length_map]
      unfold u32Max
      omega
    · intro v hv
      obtain ⟨g, hg, rfl⟩ := List.mem_map.mp hv
      refine ⟨?_, (h1 g hg).2⟩
      show g.2.length ≤ u32Max
      have := le_sum l g hg
      unfold u32Max
      omega
  have e := layout_inj nftTys nft_proper (f a d ha hd hl) (f b d' hb hd' hl')
    (Nat.le_trans hlen (by norm_num)) h
  have e' : (a.map Prod.fst, a.map Prod.snd, d, ()) =
      ((b.map Prod.fst, b.map Prod.snd, d', ()) : List Nat × List (List Nat) × Nat × Unit) := e
  obtain ⟨e1, e'⟩ := Prod.mk.inj e'
  obtain ⟨e2, e'⟩ := Prod.mk.inj e'
  refine ⟨?_, (Prod.mk.inj e').1⟩
  rw [← pair_eta a, ← pair_eta b, e1, e2]

end Verif.Outbound
