import Verif.Outbound.Data

/-! # Reading what Solidity encodes -/

namespace Verif.Outbound

open Verif Abi

theorem means_layout (ts : Tys) (hp : ts.proper) {v : ts.Val} (hv : ts.fits v) (rest : List Byte)
    (hl : (layout (ts.items v) ++ rest).length ≤ maxEthData) : ts.means (layout (ts.items v) ++ rest) 0 v := by
  have hlen : (callData 0 ts v ++ rest).length = 4 + (layout (ts.items v) ++ rest).length := by
    rw [callData, List.append_assoc, List.length_append, be_length]
  have hb : (callData 0 ts v ++ rest).length ≤ usizeMax := by
    unfold maxEthData at hl
    unfold usizeMax
    omega
  have h1 := readArgs_eq ts v hp hv 0 rest hb
  have h2 := ((readArgs_iff ts hp _ hb v).mp h1).2
  have h3 : (callData 0 ts v ++ rest).drop 4 = layout (ts.items v) ++ rest := by
    rw [callData, List.append_assoc, List.drop_append, List.drop_of_length_le (by rw [be_length]), be_length]
    simp
  rw [h3] at h2
  exact h2

theorem wordAt_drop (I : List Byte) (off c : Nat) (h : off ≤ I.length) : wordAt (I.drop off) c = wordAt I (off + c) := by
  unfold wordAt
  rw [List.length_drop, List.drop_drop]
  by_cases hc : c + 32 ≤ I.length - off
  · rw [if_pos hc, if_pos (by omega)]
  · rw [if_neg hc, if_neg (by omega)]

theorem mapM_means {α : Type} {P : Nat → α → Prop} {e : Nat → Option α} (he : ∀ c v, P c v → e c = some v) :
    ∀ (vs : List α) (k : Nat), meansEach P 32 (32 * k) vs →
      (List.range' k vs.length).mapM (fun i => e (32 * i)) = some vs
  | [], k, _ => rfl
  | v :: vs, k, h => by
    have ih := mapM_means he vs (k + 1) (by
      have := h.2
      rw [show 32 * k + 32 = 32 * (k + 1) by omega] at this
      exact this)
    rw [List.length_cons, List.range'_succ, List.mapM_cons, he _ _ h.1, ih]
    rfl

theorem decodeArray_means {t : Ty} {lim : Nat} {elem : List Byte → Nat → Option t.Val} (hs : t.headSize = 32)
    {I : List Byte} {c : Nat} {vs : List t.Val} (hI : I.length ≤ maxEthData)
    (he : ∀ J c v, J.length ≤ maxEthData → t.means J c v → elem J c = some v) (hl : lim ≤ u32Max)
    (h : (Ty.array t lim).means I c vs) : decodeArray elem I c = some vs := by
  rw [Ty.means] at h
  obtain ⟨off, h1, h2, h3, h4, h5⟩ := h
  rw [hs, List.drop_drop] at h5
  rw [wordAt_drop _ _ _ (Nat.le_of_lt h2), Nat.add_zero] at h3
  have hm := mapM_means (e := fun i => elem (I.drop (off + 32)) i) (fun c v => he (I.drop (off + 32)) c v (by
    rw [List.length_drop]; omega)) vs 0 h5
  rw [← List.range_eq_range'] at hm
  unfold decodeArray
  have g1 : off < U32 := by
    unfold maxEthData at hI
    unfold U32
    omega
  have g2 : vs.length < U32 := by
    unfold u32Max at hl
    unfold U32
    omega
  simp only [Option.bind_eq_bind, h1, Option.bind_some, guard, if_pos g1, h3, if_pos g2, Option.pure_def]
  exact hm

theorem decodeAddr_means {J : List Byte} {c v : Nat} (h : tAddr.means J c v) : decodeAddr J c = some v := by
  obtain ⟨n, h1, rfl⟩ : ∃ n, wordAt J c = some n ∧ v = n % 2 ^ 160 := h
  unfold decodeAddr
  rw [h1]
  rfl

theorem uint_means {J : List Byte} {c v : Nat} (h : tUint.means J c v) : wordAt J c = some v :=
  (show wordAt J c = some v ∧ v < 2 ^ 256 from h).1

/-- The types of a deposit of NFTs: kind, token addresses, token ids, receiver. -/
def nftInTys : Tys := .cons tUint nftTys

theorem nftIn_proper : nftInTys.proper := ⟨Nat.le_refl _, nft_proper⟩

theorem decodeErc20_layout {t x b : Nat} (ht : t < 2 ^ 160) (hx : x < 2 ^ 256) (hb : b < 2 ^ 160) (rest : List Byte)
    (hl : (layout (erc20Tys.items ((t, x, b, ()) : Nat × Nat × Nat × Unit)) ++ rest).length ≤ maxEthData) :
    decodeErc20 (layout (erc20Tys.items ((t, x, b, ()) : Nat × Nat × Nat × Unit)) ++ rest) = some ⟨t, x, b⟩ := by
  have hm := means_layout erc20Tys erc20_proper (v := ((t, x, b, ()) : Nat × Nat × Nat × Unit)) ⟨ht, hx, hb, trivial⟩ rest hl
  obtain ⟨h1, h2, h3, _⟩ := hm
  generalize layout (erc20Tys.items ((t, x, b, ()) : Nat × Nat × Nat × Unit)) ++ rest = data at *
  have e1 : decodeAddr data 0 = some t := decodeAddr_means h1
  have e2 : wordAt data 32 = some x := uint_means h2
  have e3 : decodeAddr data 64 = some b := decodeAddr_means h3
  unfold decodeErc20
  rw [e1, e2, e3]
  rfl

theorem decodeNft_layout {k d : Nat} {as : List Nat} {ids : List (List Nat)} (hk : k < 2 ^ 256)
    (ha : ∀ a ∈ as, a < 2 ^ 160) (hi : ∀ l ∈ ids, ∀ n ∈ l, n < 2 ^ 256) (hd : d < 2 ^ 160) (rest : List Byte)
    (hl : (layout (nftInTys.items ((k, as, ids, d, ()) : Nat × List Nat × List (List Nat) × Nat × Unit)) ++
      rest).length ≤ maxEthData) (hla : as.length ≤ u32Max) (hli : ids.length ≤ u32Max)
    (hll : ∀ l ∈ ids, l.length ≤ u32Max) :
    let data := layout (nftInTys.items ((k, as, ids, d, ()) : Nat × List Nat × List (List Nat) × Nat × Unit)) ++ rest
    wordAt data 0 = some k ∧ decodeNft data = some (as, ids, d) := by
  intro data
  have hm := means_layout nftInTys nftIn_proper
    (v := ((k, as, ids, d, ()) : Nat × List Nat × List (List Nat) × Nat × Unit))
    ⟨hk, ⟨hla, ha⟩, ⟨hli, fun l hl => ⟨hll l hl, hi l hl⟩⟩, hd, trivial⟩ rest hl
  obtain ⟨h1, h2, h3, h4, _⟩ := hm
  have e1 : wordAt data 0 = some k := uint_means h1
  refine ⟨e1, ?_⟩
  have e2 : decodeArray decodeAddr data 32 = some as :=
    decodeArray_means (t := tAddr) (lim := u32Max) rfl hl (fun J c v _ h => decodeAddr_means h) (Nat.le_refl _) h2
  have e3 : decodeArray (decodeArray wordAt) data 64 = some ids :=
    decodeArray_means (t := .array tUint u32Max) (lim := u32Max) rfl hl
      (fun J c v hJ h => decodeArray_means (t := tUint) (lim := u32Max) rfl hJ (fun J c v _ h => uint_means h) (Nat.le_refl _) h)
      (Nat.le_refl _) h3
  have e4 : decodeAddr data 96 = some d := decodeAddr_means h4
  unfold decodeNft
  rw [e1, e2, e3, e4]
  rfl

end Verif.Outbound
