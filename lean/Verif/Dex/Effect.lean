import Verif.Dex.Inv

namespace Verif.Dex
open Ledger

/-! ### reserves along a swap -/

theorem swapHop_K {c : Cfg} (hd : 0 < c.feeD) {s s' : St} {a b : AssetId} {out : Nat} {dst : Acct}
    (h : swapHop c s a b out dst = .ok s') (q : Pair) :
    (s.res q).1 * (s.res q).2 ≤ (s'.res q).1 * (s'.res q).2 := by
  obtain ⟨_, _, led, _, hk, hf⟩ := swapHop_ok h
  obtain ⟨k, e, _⟩ := collectFee_ok hf
  rw [e]
  dsimp only
  by_cases hq : q = mkPair a b
  · subst hq; rw [upd_same]; exact hk hd
  · rw [upd_ne _ _ hq]

theorem swapHop_frame {c : Cfg} {s s' : St} {a b : AssetId} {out : Nat} {dst : Acct}
    (h : swapHop c s a b out dst = .ok s') :
    s'.feeTo = s.feeTo ∧ s'.lp = s.lp ∧ s'.enabled = s.enabled ∧ s'.owner = s.owner ∧ s'.now = s.now := by
  obtain ⟨_, _, led, _, hk, hf⟩ := swapHop_ok h
  obtain ⟨k, e, _⟩ := collectFee_ok hf
  rw [e]
  exact ⟨rfl, rfl, rfl, rfl, rfl⟩

/-- Effect of one hop on accounts that are not pools. -/
theorem swapHop_effect {c : Cfg} {s s' : St} {a b : AssetId} {out : Nat} {dst : Acct}
    (h : swapHop c s a b out dst = .ok s') (t : AssetId) (x : Acct) (hx : ∀ p, x ≠ poolAddr p) :
    ∃ m, s'.led.bal t x = s.led.bal t x + (if t = b ∧ x = dst then out else 0) + m ∧
      (m ≠ 0 → s.feeTo = some x ∧ ∃ p, s.lp p = some t) := by
  obtain ⟨_, _, led, ht, _, hf⟩ := swapHop_ok h
  obtain ⟨k, e, hk⟩ := collectFee_ok hf
  have h1 : led.bal t x = s.led.bal t x + (if t = b ∧ x = dst then out else 0) := by
    obtain ⟨_, _, h2, h3⟩ := transfer_ok ht
    by_cases htb : t = b
    · subst htb
      have := h3 x
      rw [if_neg (hx _)] at this
      simp only [true_and]; omega
    · rw [h2 t htb]; simp [htb]
  rcases hk with hk | ⟨f, l, m, hfe, hl, hk⟩
  · refine ⟨0, ?_, by simp⟩
    rw [hk]; dsimp only; rw [h1]; rfl
  · dsimp only at hfe hl hk
    obtain ⟨_, _, _, h2, h3⟩ := mint_ok hk
    by_cases htl : t = l
    · subst htl
      refine ⟨if x = f then m else 0, ?_, ?_⟩
      · rw [h3 x, h1]
      · intro hm
        by_cases hxf : x = f
        · exact ⟨hxf ▸ hfe, _, hl⟩
        · simp [hxf] at hm
    · refine ⟨0, ?_, by simp⟩
      rw [h2 t htl, h1]; rfl

/-- Effect of the whole loop on accounts that are not pools. -/
theorem swapLoop_effect {c : Cfg} {dst : Acct} (t : AssetId) (x : Acct) (hx : ∀ p, x ≠ poolAddr p) :
    ∀ (path : List AssetId) (amts : List Nat) (s s' : St), amts.length = path.length → 2 ≤ path.length →
    swapLoop c s dst amts path = .ok s' →
    ∃ m, s'.led.bal t x = s.led.bal t x +
        (if path.getLast? = some t ∧ x = dst then amts.getLastD 0 else 0) + m ∧
      (m ≠ 0 → s.feeTo = some x ∧ ∃ p, s.lp p = some t)
  | [], _, _, _, _, h2, _ => by simp at h2
  | [_], _, _, _, _, h2, _ => by simp at h2
  | a :: b :: rest, amts, s, s', hl, _, h => by
    match amts, hl with
    | y :: out :: amts, hl =>
      simp only [swapLoop, bind_ok] at h
      obtain ⟨s1, h1, h2⟩ := h
      obtain ⟨m1, e1, hm1⟩ := swapHop_effect h1 t x hx
      obtain ⟨f1, f2, _⟩ := swapHop_frame h1
      match rest, amts with
      | [], [] =>
        simp only [swapLoop, Except.ok.injEq] at h2
        subst h2
        refine ⟨m1, ?_, hm1⟩
        rw [e1]
        simp [eq_comm]
      | r :: rest, [] => simp at hl
      | [], _ :: _ => simp at hl
      | r :: rest, z :: amts =>
        obtain ⟨m2, e2, hm2⟩ := swapLoop_effect t x hx (b :: r :: rest) (out :: z :: amts) s1 s'
          (by simpa using hl) (by simp) h2
        refine ⟨m1 + m2, ?_, ?_⟩
        · rw [e2, e1]
          rw [if_neg (by rintro ⟨_, h⟩; exact hx _ h)]
          simp only [List.getLast?_cons_cons, List.getLastD_cons]
          omega
        · intro hm
          by_cases hz : m1 = 0
          · have := hm2 (by omega)
            rw [f1, f2] at this; exact this
          · exact hm1 hz

/-! ### token totals -/

theorem collectFee_total {s s' : St} {p : Pair} (h : collectFee s p = .ok s') (a : AssetId)
    (ha : ∀ p, s.lp p ≠ some a) : s'.led.bal a = s.led.bal a ∧ s'.led.iss a = s.led.iss a := by
  obtain ⟨k, e, hk⟩ := collectFee_ok h
  rcases hk with hk | ⟨f, l, m, hfe, hl, hk⟩
  · rw [hk]; exact ⟨rfl, rfl⟩
  · have hne : a ≠ l := by rintro rfl; exact ha p hl
    exact ⟨(mint_ok hk).2.2.2.1 a hne, (mint_ok hk).2.2.1 a hne⟩

theorem swapHop_total {c : Cfg} {s s' : St} {x y : AssetId} {out : Nat} {dst : Acct}
    (h : swapHop c s x y out dst = .ok s') (a : AssetId) (ha : ∀ p, s.lp p ≠ some a) {n : Nat}
    (ht : TotalIs (s.led.bal a) n) : TotalIs (s'.led.bal a) n := by
  obtain ⟨_, _, led, htr, _, hf⟩ := swapHop_ok h
  rw [(collectFee_total hf a ha).1]
  exact transfer_total htr a ht

theorem payAndSwap_frame {c : Cfg} {s s' : St} {who dst : Acct} {amts : List Nat}
    {path : List AssetId} (h : payAndSwap c s who dst amts path = .ok s') :
    s'.feeTo = s.feeTo ∧ s'.lp = s.lp ∧ s'.enabled = s.enabled ∧ s'.owner = s.owner ∧ s'.now = s.now := by
  obtain ⟨a, b, rest, led, _, _, hs⟩ := payAndSwap_ok h
  have := swapLoop_ind (fun (s s' : St) => s'.feeTo = s.feeTo ∧ s'.lp = s.lp ∧ s'.enabled = s.enabled ∧
    s'.owner = s.owner ∧ s'.now = s.now) (fun _ => ⟨rfl, rfl, rfl, rfl, rfl⟩)
    (fun s t u h1 h2 => ⟨h2.1.trans h1.1, h2.2.1.trans h1.2.1, h2.2.2.1.trans h1.2.2.1,
      h2.2.2.2.1.trans h1.2.2.2.1, h2.2.2.2.2.trans h1.2.2.2.2⟩) path amts _ _
    (fun _ _ _ _ _ _ _ _ h => swapHop_frame h) hs
  exact this

theorem payAndSwap_total {c : Cfg} {s s' : St} {who dst : Acct} {amts : List Nat}
    {path : List AssetId} (h : payAndSwap c s who dst amts path = .ok s') (a : AssetId)
    (ha : ∀ p, s.lp p ≠ some a) {n : Nat} (ht : TotalIs (s.led.bal a) n) :
    TotalIs (s'.led.bal a) n := by
  obtain ⟨_, _, _, led, _, htr, hs⟩ := payAndSwap_ok h
  have h1 : TotalIs (led.bal a) n := transfer_total htr a ht
  have := swapLoop_ind (fun (s s' : St) => s'.lp = s.lp ∧
      ((∀ p, s.lp p ≠ some a) → TotalIs (s.led.bal a) n → TotalIs (s'.led.bal a) n))
    (fun _ => ⟨rfl, fun _ h => h⟩)
    (fun s t u h1 h2 => ⟨h2.1.trans h1.1, fun hp ht => h2.2 (by rw [h1.1]; exact hp) (h1.2 hp ht)⟩)
    path amts _ _
    (fun _ _ _ _ _ _ _ _ h => ⟨(swapHop_frame h).2.1, fun hp ht => swapHop_total h a hp ht⟩) hs
  exact this.2 ha h1

theorem addOrdered_total {s s' : St} {who dst : Acct} {p : Pair} {l : AssetId} {d0 d1 m0 m1 : Nat}
    {ev : Added} (h : addOrdered s who p l d0 d1 m0 m1 dst = .ok (s', ev)) (a : AssetId) (ha : a ≠ l)
    {n : Nat} (ht : TotalIs (s.led.bal a) n) : TotalIs (s'.led.bal a) n := by
  obtain ⟨amts, led1, led2, ll, k, _, h1, h2, _, _, _, _, hq, _, hm, _⟩ := addOrdered_ok h
  have h3 : TotalIs (led2.bal a) n := transfer_total h2 a (transfer_total h1 a ht)
  rw [(mint_ok hm).2.2.2.1 a ha]
  rcases liquidityFor_led hq with ⟨_, hb, _⟩ | ⟨_, e, _⟩
  · rw [(mint_ok hb).2.2.2.1 a ha]; exact h3
  · rw [e]; exact h3

theorem addLiquidity_lp {c : Cfg} {s s' : St} {who dst : Acct} {a b : AssetId} {da db ma mb : Nat}
    {dl : Option Nat} {ev : Added} (h : addLiquidity c s who a b da db ma mb dst dl = .ok (s', ev)) :
    (∃ l, s'.lp (mkPair a b) = some l) ∧ ∀ q l, s.lp q = some l → s'.lp q = some l := by
  obtain ⟨hne, _, sl, d0, d1, m0, m1, hsl, hd0, hd1, _, hadd⟩ := addLiquidity_ok h
  obtain ⟨_, _, _, _, k, _, _, _, _, _, _, _, _, _, _, e⟩ := addOrdered_ok hadd
  have elp : s'.lp = sl.1.lp := by rw [e]
  rw [elp]
  rcases getOrCreateLp_cases hsl with ⟨hl, e⟩ | ⟨hn, hc⟩
  · rw [e]; exact ⟨⟨_, hl⟩, fun _ _ h => h⟩
  · obtain ⟨_, n, er⟩ := createLp_ok hc
    rw [er]; dsimp only
    refine ⟨⟨_, upd_same _ _ _⟩, ?_⟩
    intro q l hq
    have : q ≠ mkPair a b := by rintro rfl; rw [hn] at hq; cases hq
    rw [upd_ne _ _ this]; exact hq

theorem addLiquidity_total {c : Cfg} {s s' : St} {who dst : Acct} {a b : AssetId} {da db ma mb : Nat}
    {dl : Option Nat} {ev : Added} (h : addLiquidity c s who a b da db ma mb dst dl = .ok (s', ev))
    (t : AssetId) (ha : ∀ p, s'.lp p ≠ some t)
    {n : Nat} (ht : TotalIs (s.led.bal t) n) : TotalIs (s'.led.bal t) n := by
  obtain ⟨hne, _, sl, d0, d1, m0, m1, hsl, hd0, hd1, _, hadd⟩ := addLiquidity_ok h
  obtain ⟨_, _, _, _, k, _, _, _, _, _, _, _, _, _, _, e⟩ := addOrdered_ok hadd
  have elp : s'.lp = sl.1.lp := by rw [e]
  rw [elp] at ha
  have hl : sl.1.lp (mkPair a b) = some sl.2 := by
    rcases getOrCreateLp_cases hsl with ⟨hl, e⟩ | ⟨hn, hc⟩
    · rw [e]; exact hl
    · obtain ⟨_, n, er⟩ := createLp_ok hc
      rw [er]; exact upd_same _ _ _
  have hled : sl.1.led = s.led := by
    rcases getOrCreateLp_cases hsl with ⟨hl, e⟩ | ⟨hn, hc⟩
    · rw [e]
    · obtain ⟨_, n, er⟩ := createLp_ok hc
      rw [er]
  refine addOrdered_total hadd t ?_ (by rw [hled]; exact ht)
  rintro rfl; exact ha _ hl

theorem removeLiquidity_total {s s' : St} {who dst : Acct} {a b : AssetId} {liq ma mb : Nat}
    {dl : Option Nat} {ev : Removed} (h : removeLiquidity s who a b liq ma mb dst dl = .ok (s', ev))
    (t : AssetId) (ha : ∀ p, s.lp p ≠ some t)
    {n : Nat} (ht : TotalIs (s.led.bal t) n) : TotalIs (s'.led.bal t) n := by
  obtain ⟨_, _, l, led, m0, m1, hl, htr, hr⟩ := removeLiquidity_ok h
  obtain ⟨led1, led2, k, _, _, _, _, _, _, _, _, hb, h1, h2, e⟩ := removeOrdered_ok hr
  have hne : t ≠ l := by rintro rfl; exact ha _ hl
  apply transfer_total h2
  apply transfer_total h1
  rw [(burn_ok hb).2.2.2.1 t hne]
  exact transfer_total htr t ht

theorem removeLiquidity_lp {s s' : St} {who dst : Acct} {a b : AssetId} {liq ma mb : Nat}
    {dl : Option Nat} {ev : Removed} (h : removeLiquidity s who a b liq ma mb dst dl = .ok (s', ev)) :
    s'.lp = s.lp := by
  obtain ⟨_, _, l, led, m0, m1, hl, htr, hr⟩ := removeLiquidity_ok h
  obtain ⟨led1, led2, k, _, _, _, _, _, _, _, _, hb, h1, h2, e⟩ := removeOrdered_ok hr
  rw [e]

/-! ### quotes -/

theorem getAmountOut_ok {c : Cfg} {x ri ro y : Nat} (h : getAmountOut c x ri ro = .ok y) :
    0 < x ∧ 0 < ri ∧ 0 < ro ∧ c.feeN ≤ c.feeD ∧ 0 < ri * c.feeD + x * (c.feeD - c.feeN) ∧
    y = sat128 (x * (c.feeD - c.feeN) * ro / (ri * c.feeD + x * (c.feeD - c.feeN))) := by
  unfold getAmountOut at h
  simp only [bind_ok, ensure_ok, mul256_ok, subC_ok, divC_ok, add256_ok, pure_ok] at h
  obtain ⟨_, hx, _, hr, f, ⟨hf, rfl⟩, i, ⟨_, rfl⟩, n, ⟨_, rfl⟩, d0, ⟨_, rfl⟩, d, ⟨_, rfl⟩, q, ⟨hz, rfl⟩, rfl⟩ := h
  exact ⟨hx, hr.1, hr.2, hf, Nat.pos_of_ne_zero hz, rfl⟩

theorem getAmountIn_ok {c : Cfg} {o ri ro x : Nat} (h : getAmountIn c o ri ro = .ok x) :
    0 < o ∧ 0 < ri ∧ 0 < ro ∧ c.feeN ≤ c.feeD ∧ o ≤ ro ∧ 0 < (ro - o) * (c.feeD - c.feeN) ∧
    x = sat128 (ri * o * c.feeD / ((ro - o) * (c.feeD - c.feeN)) + 1) := by
  unfold getAmountIn at h
  simp only [bind_ok, ensure_ok, mul256_ok, subC_ok, divC_ok, add256_ok, pure_ok] at h
  obtain ⟨_, hx, _, hr, n0, ⟨_, rfl⟩, n, ⟨_, rfl⟩, d0, ⟨ho, rfl⟩, f, ⟨hf, rfl⟩, d, ⟨_, rfl⟩, q, ⟨hz, rfl⟩,
    q1, ⟨_, rfl⟩, rfl⟩ := h
  exact ⟨hx, hr.1, hr.2, hf, ho, Nat.pos_of_ne_zero hz, rfl⟩

theorem getAmountOut_lt {c : Cfg} {x ri ro y : Nat} (hd : 0 < c.feeD)
    (h : getAmountOut c x ri ro = .ok y) : y < ro := by
  obtain ⟨hx, hri, hro, hf, hden, rfl⟩ := getAmountOut_ok h
  refine lt_of_le_of_lt (sat128_le _) ?_
  rw [Nat.div_lt_iff_lt_mul hden]
  have : 0 < ro * (ri * c.feeD) := Nat.mul_pos hro (Nat.mul_pos hri hd)
  have e : ro * (ri * c.feeD + x * (c.feeD - c.feeN)) = ro * (ri * c.feeD) + x * (c.feeD - c.feeN) * ro := by
    ring
  omega

/-- Swapping back the output at the new reserves returns at most the input. -/
theorem quote_roundtrip {c : Cfg} {x ri ro y z : Nat} (h1 : getAmountOut c x ri ro = .ok y)
    (h2 : getAmountOut c y (ro - y) (ri + x) = .ok z) : z ≤ x := by
  obtain ⟨hx, hri, hro, hf, hden, e1⟩ := getAmountOut_ok h1
  obtain ⟨hy, hri2, _, _, hden2, e2⟩ := getAmountOut_ok h2
  have hyro : y ≤ ro := by omega
  obtain ⟨w, rfl⟩ := Nat.exists_eq_add_of_le hyro
  simp only [Nat.add_sub_cancel_left] at hri2 hden2 e2
  obtain ⟨n, hn⟩ := Nat.exists_eq_add_of_le hf
  have hfe : c.feeD - c.feeN = n := by omega
  rw [hfe] at hden e1 hden2 e2
  have hk : y * (ri * c.feeD + x * n) ≤ x * n * (y + w) := by
    have : y ≤ x * n * (y + w) / (ri * c.feeD + x * n) :=
      le_of_eq_of_le e1 (sat128_le _)
    exact (Nat.le_div_iff_mul_le hden).mp this
  have hn0 : 0 < n := by
    rcases Nat.eq_zero_or_pos n with rfl | h
    · exfalso
      simp only [Nat.mul_zero, Nat.zero_mul, Nat.add_zero, Nat.le_zero, Nat.mul_eq_zero] at hk hden
      have : 0 < ri * c.feeD := hden
      rcases hk with h | h
      · omega
      · rcases h with h | h
        · omega
        · rw [h] at this; omega
    · exact h
  have hnd : n ≤ c.feeD := by omega
  have hz : z ≤ y * n * (ri + x) / (w * c.feeD + y * n) :=
    le_of_eq_of_le e2 (sat128_le _)
  refine le_trans hz ?_
  apply Nat.div_le_of_le_mul
  have key : n * (y * n * (ri + x)) ≤ n * ((w * c.feeD + y * n) * x) := by
    have h3 := Nat.mul_le_mul_left c.feeD hk
    have h4 : y * ri * (n * n) ≤ y * ri * (c.feeD * c.feeD) :=
      Nat.mul_le_mul_left _ (Nat.mul_le_mul hnd hnd)
    nlinarith
  exact Nat.le_of_mul_le_mul_left key hn0

end Verif.Dex
