import Verif.Futurepass.Acts
import Verif.Futurepass.Demo

/-! # Futurepass: properties -/

namespace Verif.Futurepass

open Demo

/-! ## C52: one holder -/

/-- C52. A futurepass has at most one holder. The holder is an owner-level delegate, and the only one. -/
theorem C52_holder {c : Cfg} {g s : St} (hs : Reach c (NoKey c) g s) (hr : creations s + 1 < U128) {a fp : Acct}
    (h : s.holder a = some fp) :
    (∀ b, s.holder b = some fp → b = a) ∧ IsOwner s fp a ∧ ∀ w, IsOwner s fp w → w = a := by
  have H := inv hs hr
  refine ⟨fun b hb => H.inj b a fp hb h, ⟨_, H.ent a fp h, rfl, rfl⟩, ?_⟩
  rintro w ⟨d, hd, rfl, ht⟩
  obtain ⟨n, rfl, _⟩ := H.held a fp h
  rcases (H.own n d hd).2 with ⟨_, k⟩ | k
  · exact H.inj _ _ _ k h
  · rw [ht] at k
    cases k

/-- C52. An owner-level delegate of a futurepass address is its holder, so that there is none without a holder. -/
theorem C52_owner {c : Cfg} {g s : St} (hs : Reach c (NoKey c) g s) (hr : creations s + 1 < U128) {n : Nat} {w : Acct}
    (h : IsOwner s (c.addr n) w) : s.holder w = some (c.addr n) := by
  obtain ⟨d, hd, rfl, ht⟩ := h
  rcases ((inv hs hr).own n d hd).2 with ⟨_, k⟩ | k
  · exact k
  · rw [ht] at k
    cases k

/-- C52. No address is given out twice: the addresses of all futurepasses ever created are different. -/
theorem C52_fresh {c : Cfg} {g s : St} (hs : Reach c (NoKey c) g s) (hr : creations s + 1 < U128) :
    (s.events.filterMap (fun e => match e with
      | .created fp _ => some fp
      | _ => none)).Nodup :=
  (inv hs hr).uniq

/-- C52. A new futurepass belongs to the account it was asked for, which held none, has an address that nobody holds
and that had no delegates, and gets that account as its only delegate. -/
theorem C52_create {c : Cfg} {g s s' : St} (hs : Reach c (NoKey c) g s) (hr : creations s + 1 < U128)
    {who acc : Acct} (h : step c s (.call who (.create acc)) = .ok s') :
    ∃ fp, s.holder acc = none ∧ s'.holder acc = some fp ∧ (∀ a, s.holder a ≠ some fp) ∧ s.proxies fp = [] ∧
      s'.proxies fp = [⟨acc, .owner, 0⟩] ∧ Ev.created fp acc ∈ s'.events ∧
      (∀ a, a ≠ acc → s'.holder a = s.holder a) ∧ ∀ a, a ≠ fp → s'.proxies a = s.proxies a := by
  simp only [step, dispatch, bind_ok, ensure_ok] at h
  obtain ⟨_, _, h⟩ := h
  have H := inv hs hr
  obtain ⟨h1, _, _, h4, _, h6, h7, _⟩ := create_ok h
  have hb := H.blank s.next (Nat.le_refl _)
  refine ⟨c.addr s.next, h1, by rw [h4, upd_same], ?_, hb, ?_, ?_, ?_, ?_⟩
  · intro a ha
    obtain ⟨n, e1, e2⟩ := H.held a _ ha
    have := c.addr_inj _ _ e1
    omega
  · rw [h7, upd_same, hb]
    rfl
  · rw [h6]
    exact List.mem_cons_self
  · intro a ha
    rw [h4, upd_ne _ _ ha]
  · intro a ha
    rw [h7, upd_ne _ _ ha]

example : d3.holder 1 = some 1001 ∧ d3.holder 2 = some 1002 ∧ d3.proxies 1001 = [⟨1, .owner, 0⟩, ⟨3, .any, 0⟩, ⟨4, .any, 0⟩] ∧
    d3.proxies 1002 = [⟨2, .owner, 0⟩] := by decide +kernel
example := C52_holder reach3 room3 (a := 1) (fp := 1001) (by decide +kernel)
example := C52_owner reach3 room3 (n := 1) (w := 1) (by decide +kernel)
example : ∃ s', step cfg d3 (.call 5 (.create 6)) = .ok s' ∧ s'.holder 6 = some 1003 := by
  exact ⟨_, ok_getD (d := d3) (by decide +kernel), by decide +kernel⟩

/-! ## C53: transfers -/

/-- C53. After a transfer to `n`, `n` is the holder, the old holder holds nothing, and `n` is the only delegate. Other
futurepasses are as before. -/
theorem C53_transfer {c : Cfg} {g s s' : St} (hs : Reach c (NoKey c) g s) (hr : creations s + 1 < U128)
    {who cur n : Acct} (h : step c s (.call who (.transfer cur (some n))) = .ok s') :
    ∃ fp, s.holder cur = some fp ∧ s'.holder n = some fp ∧ s'.holder cur = none ∧
      (∀ w, IsDelegate s' fp w ↔ w = n) ∧ IsOwner s' fp n ∧
      (∀ a, a ≠ n → a ≠ cur → s'.holder a = s.holder a) ∧ ∀ a, a ≠ fp → s'.proxies a = s.proxies a := by
  simp only [step, dispatch, bind_ok, ensure_ok] at h
  obtain ⟨_, _, h⟩ := h
  have H := inv hs hr
  obtain ⟨fp, h1, h2, h3, h4, h5, e1, e2, _, e4, e3, e5, _⟩ := transfer_some h
  have hne : cur ≠ n := by
    rintro rfl
    exact h5 (H.ent cur fp h1)
  have hown : (⟨n, .owner, 0⟩ : Def) ∈ s'.proxies fp := (e5 _).mpr ⟨rfl, .inl rfl⟩
  refine ⟨fp, h1, by rw [e2, upd_same], by rw [e2, upd_ne _ _ hne, upd_same], ?_, ⟨_, hown, rfl, rfl⟩, ?_, e3⟩
  · intro w
    constructor
    · rintro ⟨d, hd, rfl⟩
      exact ((e5 d).mp hd).1
    · rintro rfl
      exact ⟨_, hown, rfl⟩
  · intro a ha hb
    rw [e2, upd_ne _ _ ha, upd_ne _ _ hb]

/-- C53. After giving a futurepass up, nobody holds it and it has no delegates at all. -/
theorem C53_renounce {c : Cfg} {g s s' : St} (hs : Reach c (NoKey c) g s) (hr : creations s + 1 < U128)
    {who cur : Acct} (h : step c s (.call who (.transfer cur none)) = .ok s') :
    ∃ fp, s.holder cur = some fp ∧ (∀ a, s'.holder a ≠ some fp) ∧ (∀ w, ¬ IsDelegate s' fp w) ∧
      (∀ a, a ≠ cur → s'.holder a = s.holder a) ∧ ∀ a, a ≠ fp → s'.proxies a = s.proxies a := by
  simp only [step, dispatch, bind_ok, ensure_ok] at h
  obtain ⟨_, _, h⟩ := h
  have H := inv hs hr
  obtain ⟨fp, h1, h2, e1, e2, _, e4, e3, _⟩ := transfer_none h
  refine ⟨fp, h1, ?_, ?_, ?_, ?_⟩
  · intro a ha
    rw [e2] at ha
    by_cases e : a = cur
    · rw [e, upd_same] at ha
      cases ha
    · rw [upd_ne _ _ e] at ha
      exact e (H.inj a cur fp ha h1)
  · rintro w ⟨d, hd, _⟩
    rw [e3, upd_same] at hd
    exact absurd hd (List.not_mem_nil)
  · intro a ha
    rw [e2, upd_ne _ _ ha]
  · intro a ha
    rw [e3, upd_ne _ _ ha]

/-- C53. Whatever route it takes, a step that ends `h`'s hold of `fp` was asked for by `h` or by an owner-level
delegate of `h` itself, and leaves as delegates the new holder alone, or nobody if there is none. -/
theorem C53_only {c : Cfg} {g s s' : St} {op : Op} (hs : Reach c (NoKey c) g s) (hr : creations s + 1 < U128)
    (hk : NoKey c s op) (hsi : Single op) (h : step c s op = .ok s') {a fp : Acct} (ha : s.holder a = some fp)
    (hn : s'.holder a ≠ some fp) :
    (∃ p, principal op = some p ∧ (p = a ∨ IsOwner s a p)) ∧
      ((∃ n, s'.holder n = some fp ∧ ∀ w, IsDelegate s' fp w ↔ w = n) ∨
        (∀ w, s'.holder w ≠ some fp) ∧ ∀ w, ¬ IsDelegate s' fp w) := by
  have H := inv hs hr
  rcases step_by H hk h hsi with hsame | ⟨p, x, hp, hm, hx⟩
  · rw [hsame.1] at hn
    exact absurd ha hn
  · rcases hm with ⟨acc, hm⟩ | ⟨f, d, ty, dl, sig, hm⟩ | ⟨f, d, hm⟩ | ⟨cur, new, hm⟩
    · exfalso
      obtain ⟨h1, _, _, h4, _⟩ := create_ok hm
      have hne : a ≠ acc := by
        rintro rfl
        rw [h1] at ha
        cases ha
      rw [h4, upd_ne _ _ hne] at hn
      exact hn ha
    · exfalso
      obtain ⟨_, _, _, _, _, _, _, e2, _⟩ := register_ok hm
      rw [e2] at hn
      exact hn ha
    · exfalso
      obtain ⟨_, _, _, _, _, _, e2, _⟩ := unregister_ok hm
      rw [e2] at hn
      exact hn ha
    · -- the authority
      have auth : ∀ {fp'}, s.holder cur = some fp' → (x = cur ∨ fp' = x) → cur = a → p = a ∨ IsOwner s a p := by
        intro fp' hc hxc e
        subst e
        rcases hxc with rfl | rfl
        · rcases hx with e | e
          · exact .inl e.symm
          · exact .inr e
        · have hfp : fp' = fp := by
            rw [hc] at ha
            exact Option.some.inj ha
          subst hfp
          rcases hx with e | e
          · exfalso
            obtain ⟨n, e1, _⟩ := H.held cur fp' hc
            rw [e1] at e
            -- the principal is no futurepass address
            cases op with
            | call who call => exact hk n (by cases hp; exact e.symm)
            | evm who b => exact hk n (by cases hp; exact e.symm)
            | contract who m dl b =>
              simp only [principal, Option.some.injEq] at hp
              split at hp
              · exact (hk n).1 (by rw [hp]; exact e.symm)
              · exact (hk n).2 (by rw [hp]; exact e.symm)
            | block => cases hp
            | endow y v => cases hp
          · obtain ⟨n, e1, _⟩ := H.held cur fp' hc
            obtain ⟨d, hd, hw, ht⟩ := e
            rw [e1] at hd
            rcases (H.own n d hd).2 with ⟨_, k⟩ | k
            · rw [← e1, hw] at k
              exact .inl (H.inj p cur fp' k hc)
            · rw [ht] at k
              cases k
      cases new with
      | none =>
        obtain ⟨fp', h1, h2, e1, e2, _, e4, e3, _⟩ := transfer_none hm
        have hcur : cur = a := by
          by_contra hne
          rw [e2, upd_ne _ _ (fun e => hne e.symm)] at hn
          exact hn ha
        refine ⟨⟨p, hp, auth h1 h2 hcur⟩, .inr ⟨?_, ?_⟩⟩
        · intro w hw
          rw [e2] at hw
          by_cases e : w = cur
          · rw [e, upd_same] at hw
            cases hw
          · rw [upd_ne _ _ e] at hw
            exact e ((H.inj w a fp hw ha).trans hcur.symm)
        · rintro w ⟨d, hd, _⟩
          subst hcur
          have : fp' = fp := by
            rw [h1] at ha
            exact Option.some.inj ha
          rw [e3, this, upd_same] at hd
          exact absurd hd (List.not_mem_nil)
      | some n =>
        obtain ⟨fp', h1, h2, h3, h4, h5, e1, e2, _, e4, e3, e5, _⟩ := transfer_some hm
        have hcur : cur = a := by
          by_contra hne
          rw [e2] at hn
          by_cases e : a = n
          · rw [upd_ne _ _ (fun e' => hne (e'.symm.trans e.symm)), ← e, ha] at h3
            cases h3
          · rw [upd_ne _ _ e, upd_ne _ _ (fun e => hne e.symm)] at hn
            exact hn ha
        have hfp : fp' = fp := by
          rw [hcur, ha] at h1
          exact (Option.some.inj h1).symm
        refine ⟨⟨p, hp, auth h1 h2 hcur⟩, .inl ⟨n, by rw [e2, upd_same, hfp], ?_⟩⟩
        intro w
        rw [← hfp]
        constructor
        · rintro ⟨d, hd, rfl⟩
          exact ((e5 d).mp hd).1
        · rintro rfl
          exact ⟨_, (e5 _).mpr ⟨rfl, .inl rfl⟩, rfl⟩

example : ∃ s', step cfg d3 (.call 1 (.transfer 1 (some 4))) = .ok s' ∧ s'.holder 4 = some 1001 ∧
    s'.proxies 1001 = [⟨4, .any, 0⟩, ⟨4, .owner, 0⟩] := by
  exact ⟨_, ok_getD (d := d3) (by decide +kernel), by decide +kernel⟩
example : ∃ s', step cfg d3 (.call 1 (.proxyExtrinsic 1001 (.transfer 1 none))) = .ok s' ∧ s'.holder 1 = none ∧
    s'.proxies 1001 = [] := by
  exact ⟨_, ok_getD (d := d3) (by decide +kernel), by decide +kernel⟩
example := C53_only reach3 room3 (op := .call 1 (.transfer 1 (some 4))) (a := 1) (fp := 1001)
  (key_of (by decide +kernel)) (by decide +kernel : _ = true) (ok_getD (d := d3) (by decide +kernel))
  (by decide +kernel) (by decide +kernel)

/-! ## C98: delegates agree -/

/-- C98. Somebody who becomes a delegate of a futurepass becomes its holder or agreed to it with a signature over this
futurepass and themselves that has not expired. -/
theorem C98_agreed {c : Cfg} {g s s' : St} {op : Op} (hs : Reach c (NoKey c) g s) (hk : NoKey c s op)
    (h : step c s op = .ok s') (hr : creations s' + 1 < U128) {n : Nat} {w : Acct}
    (hd : IsDelegate s' (c.addr n) w) :
    IsDelegate s (c.addr n) w ∨ s'.holder w = some (c.addr n) ∨ Agreed c s (c.addr n) w := by
  obtain ⟨d, hd, rfl⟩ := hd
  have key : d ∈ s.proxies (c.addr n) ∨ d.ty = .owner ∨ Agreed c s (c.addr n) d.who := by
    rcases step_cases h (fun who call e => by subst e; exact hk) with h | rfl | ⟨a, x, rfl⟩
    · exact h.entry hd
    · exact .inl hd
    · exact .inl hd
  rcases key with k | k | k
  · exact .inl ⟨d, k, rfl⟩
  · exact .inr (.inl (C52_owner (.step hs hk h) hr ⟨d, hd, rfl, k⟩))
  · exact .inr (.inr k)

/-- C98. And it was the holder of the futurepass who asked for it, or an owner-level delegate of the holder. -/
theorem C98_asked {c : Cfg} {g s s' : St} {op : Op} (hs : Reach c (NoKey c) g s) (hr : creations s + 1 < U128)
    (hk : NoKey c s op) (hsi : Single op) (h : step c s op = .ok s') {n : Nat} {w : Acct}
    (hd : IsDelegate s' (c.addr n) w) (hno : ¬ IsDelegate s (c.addr n) w) (hh : s'.holder w ≠ some (c.addr n)) :
    ∃ p a, principal op = some p ∧ s.holder a = some (c.addr n) ∧ (p = a ∨ IsOwner s a p) := by
  have H := inv hs hr
  obtain ⟨d, hd, rfl⟩ := hd
  rcases step_by H hk h hsi with hsame | ⟨p, x, hp, hm, hx⟩
  · rw [hsame.2 n] at hd
    exact absurd ⟨d, hd, rfl⟩ hno
  · rcases hm with ⟨acc, hm⟩ | ⟨f, d', ty, dl, sig, hm⟩ | ⟨f, d', hm⟩ | ⟨cur, new, hm⟩
    · exfalso
      obtain ⟨_, _, _, h4, _, _, e, _⟩ := create_ok hm
      rw [e] at hd
      by_cases hf : c.addr n = c.addr s.next
      · rw [hf, upd_same] at hd
        rcases mem_insertDef.mp hd with rfl | hd
        · apply hh
          rw [h4, hf]
          exact upd_same _ _ _
        · rw [← hf] at hd
          exact hno ⟨d, hd, rfl⟩
      · rw [upd_ne _ _ hf] at hd
        exact hno ⟨d, hd, rfl⟩
    · obtain ⟨h1, _, _, _, _, _, _, _, _, _, e, _⟩ := register_ok hm
      rw [e] at hd
      have hf : c.addr n = f := by
        by_contra hf
        rw [upd_ne _ _ hf] at hd
        exact hno ⟨d, hd, rfl⟩
      rw [← hf] at h1
      rcases h1 with h1 | h1
      · subst h1
        rcases hx with e | e
        · exfalso
          cases op with
          | call who call => exact hk n (by cases hp; exact e.symm)
          | evm who b => exact hk n (by cases hp; exact e.symm)
          | contract who m dl b =>
            simp only [principal, Option.some.injEq] at hp
            split at hp
            · exact (hk n).1 (by rw [hp]; exact e.symm)
            · exact (hk n).2 (by rw [hp]; exact e.symm)
          | block => cases hp
          | endow y v => cases hp
        · exact ⟨p, p, hp, C52_owner hs hr e, .inl rfl⟩
      · refine ⟨p, x, hp, h1, ?_⟩
        rcases hx with e | e
        · exact .inl e.symm
        · exact .inr e
    · exfalso
      obtain ⟨y, _, _, _, _, _, _, _, _, e, _⟩ := unregister_ok hm
      rw [e] at hd
      by_cases hf : c.addr n = f
      · rw [hf, upd_same] at hd
        have := List.mem_of_mem_erase hd
        rw [← hf] at this
        exact hno ⟨d, this, rfl⟩
      · rw [upd_ne _ _ hf] at hd
        exact hno ⟨d, hd, rfl⟩
    · exfalso
      cases new with
      | none =>
        obtain ⟨fp', _, _, _, _, _, _, e3, _⟩ := transfer_none hm
        rw [e3] at hd
        by_cases hf : c.addr n = fp'
        · rw [hf, upd_same] at hd
          exact absurd hd (List.not_mem_nil)
        · rw [upd_ne _ _ hf] at hd
          exact hno ⟨d, hd, rfl⟩
      | some m =>
        obtain ⟨fp', _, _, _, _, _, _, e2, _, _, e3, e5, _⟩ := transfer_some hm
        by_cases hf : c.addr n = fp'
        · rw [hf] at hd
          have := (e5 d).mp hd
          apply hh
          rw [e2, this.1, hf]
          exact upd_same _ _ _
        · rw [e3 _ hf] at hd
          exact hno ⟨d, hd, rfl⟩

example : ∃ s', step cfg d1 opRegister = .ok s' ∧ IsDelegate s' 1001 3 ∧ ¬ IsDelegate d1 1001 3 ∧
    s'.holder 3 ≠ some 1001 := by
  exact ⟨_, ok_getD (d := d1) (by decide +kernel), by decide +kernel⟩
example := C98_asked reach1 room1 (op := opRegister) (n := 1) (w := 3) (key_of (by decide +kernel))
  (by decide +kernel : _ = true) (ok_getD (d := d1) (by decide +kernel)) (by decide +kernel) (by decide +kernel)
  (by decide +kernel)

/-! ## C99: leaving -/

/-- A delegate who has left comes back only with a signature made after they left. -/
def C99_full : Prop :=
  ∀ (c : Cfg) (g s s1 s2 : St) (fp d who : Acct) (ty : PType) (deadline sig : Nat),
    Reach c (NoKey c) g s → Ev.registered fp d ∈ s.events →
    step c s (.call d (.unregister fp d)) = .ok s1 →
    -- the only message `d` has ever signed is the one used before
    (∀ sig' m, c.recover sig' m = some d → sig' = sig ∧ m = (fp, d, ty, deadline)) →
    step c s1 (.call who (.register fp d ty deadline sig)) ≠ .ok s2

/-- C99 is false: the signature that made somebody a delegate can be used again after they have left, as long as it has
not expired. -/
theorem C99_refuted : ¬ C99_full := by
  intro h
  refine h cfg g0 d2 (after cfg d2 (.call 3 (.unregister 1001 3)))
    (after cfg (after cfg d2 (.call 3 (.unregister 1001 3))) opRegister) 1001 3 1 .any 100 77 reach2
    (by decide +kernel) ?_ ?_ ?_
  · exact after_ok (by decide +kernel)
  · intro sig m hm
    unfold cfg at hm
    dsimp only at hm
    split at hm
    · rename_i h1
      exact h1
    · split at hm
      · cases hm
      · cases hm
  · exact after_ok (op := opRegister) (by decide +kernel)

/-- C99, what holds: somebody without any unexpired signature for the futurepass does not become a delegate of it,
except by becoming its holder. -/
theorem C99_partial {c : Cfg} {g s s' : St} {op : Op} (hs : Reach c (NoKey c) g s) (hk : NoKey c s op)
    (h : step c s op = .ok s') (hr : creations s' + 1 < U128) {n : Nat} {w : Acct}
    (hno : ¬ IsDelegate s (c.addr n) w)
    (hsig : ∀ sig deadline, c.recover sig (c.addr n, w, .any, deadline) = some w → deadline < s.now)
    (hd : IsDelegate s' (c.addr n) w) : s'.holder w = some (c.addr n) := by
  rcases C98_agreed hs hk h hr hd with k | k | ⟨sig, dl, k1, k2⟩
  · exact absurd k hno
  · exact k
  · have := hsig sig dl k2
    omega

/-! ## C100: delegates do not manage -/

/-- C100. Whatever a delegate who is not the holder has the futurepass do, no holder and no delegate of any futurepass
changes. This covers calls wrapped in batches at any depth. -/
theorem C100_signed {c : Cfg} {g s s' : St} (hs : Reach c (NoKey c) g s) (hr : creations s + 1 < U128)
    {who : Acct} {n : Nat} {call : Call} {force : Option PType} {viaPallet : Bool}
    (hh : s.holder who ≠ some (c.addr n))
    (h : step c s (.call who (if viaPallet then .proxyExtrinsic (c.addr n) call
      else .proxy (c.addr n) force call)) = .ok s') :
    s'.holder = s.holder ∧ ∀ m, s'.proxies (c.addr m) = s.proxies (c.addr m) := by
  have H := inv hs hr
  have body : ∀ {f : Option PType} {d : Def}, findProxy s (c.addr n) who f = some d →
      (match dispatch c call s (c.addr n) (some d.ty) with
        | .ok s1 => (.ok s1 : Except Err St)
        | .error _ => .ok s) = .ok s' → Same c s s' := by
    intro f d hd h
    obtain ⟨h1, h2, _⟩ := findProxy_some hd
    have hty : d.ty ≠ .owner := fun e => hh (C52_owner hs hr ⟨d, h1, h2, e⟩)
    cases hdi : dispatch c call s (c.addr n) (some d.ty) with
    | ok s1 =>
      rw [hdi] at h
      cases h
      exact filtered call hty hdi
    | error e =>
      rw [hdi] at h
      cases h
      exact Same.refl _ _
  cases viaPallet with
  | true =>
    rw [if_pos rfl] at h
    simp only [step, dispatch, bind_ok, ensure_ok, okOr_ok] at h
    obtain ⟨_, _, _, _, _, _, _, _, d, hd, _, _, h⟩ := h
    exact body hd h
  | false =>
    rw [if_neg (by simp)] at h
    simp only [step, dispatch, bind_ok, ensure_ok, okOr_ok] at h
    obtain ⟨_, _, d, hd, _, _, h⟩ := h
    exact body hd h

/-- C100: a call that manages the futurepass, sent through it by anyone but its holder, is refused as a
whole: the transaction itself fails, not only the inner call. -/
theorem C100_refused {c : Cfg} {s : St} {who fp : Acct} {call : Call} {f : Option PType}
    (hm : manages call = true) (hh : s.holder who ≠ some fp) :
    ∃ e, dispatch c (.proxyExtrinsic fp call) s who f = .error e := by
  cases h : dispatch c (.proxyExtrinsic fp call) s who f with
  | error e => exact ⟨e, rfl⟩
  | ok s' =>
    simp only [dispatch, bind_ok, ensure_ok] at h
    obtain ⟨_, _, _, _, _, h, _⟩ := h
    rw [hm] at h
    simp [hh] at h

/-- Non-vacuity: a delegate of a reachable futurepass tries to remove another one. -/
example : Reach cfg (NoKey cfg) g0 d2 ∧ manages (.unregister 1001 3) = true ∧ d2.holder 3 ≠ some 1001 ∧
    errIs (dispatch cfg (.proxyExtrinsic 1001 (.unregister 1001 3)) d2 3 none) "NotFuturepassOwner" = true :=
  ⟨reach2, by decide +kernel, by decide +kernel, by decide +kernel⟩

/-- C100. The same through `proxyCall` of the EVM. -/
theorem C100_evm {c : Cfg} {s s' : St} {who fp : Acct} {t : Target} (hh : s.holder who ≠ some fp)
    (h : step c s (.evm who (.proxied fp t)) = .ok s') :
    s'.holder = s.holder ∧ ∀ m, s'.proxies (c.addr m) = s.proxies (c.addr m) := by
  rcases evmProxy_manage h with h | ⟨h, _⟩
  · exact h
  · exact absurd h hh

/-- C100. Nobody acts for a futurepass without being its delegate: without an entry every attempt fails. -/
theorem C100_stranger {c : Cfg} {s : St} {who fp : Acct} {call : Call} {t : Target} (hh : ¬ IsDelegate s fp who) :
    (∀ s', step c s (.call who (.proxyExtrinsic fp call)) ≠ .ok s') ∧
      (∀ s' f, step c s (.call who (.proxy fp f call)) ≠ .ok s') ∧
      ∀ s', step c s (.evm who (.proxied fp t)) ≠ .ok s' := by
  have no : ∀ {f : Option PType} {d : Def}, findProxy s fp who f = some d → False := by
    intro f d hd
    obtain ⟨h1, h2, _⟩ := findProxy_some hd
    exact hh ⟨d, h1, h2⟩
  refine ⟨?_, ?_, ?_⟩
  · intro s' h
    simp only [step, dispatch, bind_ok, ensure_ok, okOr_ok] at h
    obtain ⟨_, _, _, _, _, _, _, _, d, hd, _⟩ := h
    exact no hd
  · intro s' f h
    simp only [step, dispatch, bind_ok, ensure_ok, okOr_ok] at h
    obtain ⟨_, _, d, hd, _⟩ := h
    exact no hd
  · intro s' h
    obtain ⟨_, _, _, _, hd, _⟩ := evmProxy_ok h
    exact no hd

example : ∃ s', step cfg d2 (.call 3 (.proxyExtrinsic 1001 .other)) = .ok s' ∧ Ev.acted 1001 ∈ s'.events ∧
    d2.holder 3 ≠ some 1001 := by
  exact ⟨_, ok_getD (d := d2) (by decide +kernel), by decide +kernel⟩
example : ∃ s', step cfg d2 (.call 3 (.proxyExtrinsic 1001 (.batch false .other (.transfer 1 (some 3))))) = .ok s' ∧
    Ev.acted 1001 ∈ s'.events ∧ s'.holder 1 = some 1001 := by
  exact ⟨_, ok_getD (d := d2) (by decide +kernel), by decide +kernel⟩
example : ∃ s', step cfg d2 (.evm 3 (.proxied 1001 .other)) = .ok s' ∧ Ev.acted 1001 ∈ s'.events := by
  exact ⟨_, ok_getD (d := d2) (by decide +kernel), by decide +kernel⟩
example : ¬ IsDelegate d2 1001 5 := by decide +kernel

/-! ## C101: deposits -/

/-- C101. What an account has reserved is exactly the price of its list of delegates. -/
theorem C101_reserved {c : Cfg} {g s : St} (hs : Reach c (NoKey c) g s) (a : Acct) :
    s.reserved a = if s.proxies a = [] then 0 else c.base + c.factor * (s.proxies a).length := by
  have b := books hs
  rw [b.reserved, b.dep]
  unfold deposit
  cases s.proxies a with
  | nil => rfl
  | cons d ds => rfl

/-- C101. Nothing but new money changes the sum of all balances. -/
theorem C101_total {c : Cfg} {s s' : St} {op : Op} (hk : NoKey c s op) (h : step c s op = .ok s')
    (he : ∀ a x, op ≠ .endow a x) {F R : Nat} (hF : TotalIs s.free F) (hR : TotalIs s.reserved R) :
    ∃ F' R', TotalIs s'.free F' ∧ TotalIs s'.reserved R' ∧ F' + R' = F + R := by
  cases op with
  | endow a x => exact absurd rfl (he a x)
  | block =>
    cases h
    exact ⟨F, R, hF, hR, rfl⟩
  | call who call => exact (dispatch_chain call h (fun _ => hk)).keeps F R hF hR
  | evm who a => exact (runAct_prim h).keeps F R hF hR
  | contract who m dl a => exact (runAct_prim (viaContract_ok h)).keeps F R hF hR

/-- C101. Creating a futurepass costs the caller the deposit for one delegate, and the existential deposit if the new
account has not got it yet. The new account has all of that. -/
theorem C101_create {c : Cfg} {g s s' : St} (hs : Reach c (NoKey c) g s) (hr : creations s + 1 < U128)
    {who acc : Acct} (hw : ∀ n, who ≠ c.addr n) (h : step c s (.call who (.create acc)) = .ok s') :
    ∃ fp, s'.holder acc = some fp ∧
      wealth s' who + (c.base + c.factor + if s.free fp < c.ed then c.ed else 0) = wealth s who ∧
      wealth s' fp = wealth s fp + (c.base + c.factor + if s.free fp < c.ed then c.ed else 0) ∧
      ∀ y, y ≠ who → y ≠ fp → wealth s' y = wealth s y := by
  simp only [step, dispatch, bind_ok, ensure_ok] at h
  obtain ⟨_, _, h⟩ := h
  have H := inv hs hr
  have b := books hs
  obtain ⟨_, _, _, h4, _, _, _, _, hm, _⟩ := create_ok h
  have hb := H.blank s.next (Nat.le_refl _)
  have hc : addCost c s (c.addr s.next) = c.base + c.factor + if s.free (c.addr s.next) < c.ed then c.ed else 0 := by
    unfold addCost
    rw [b.dep, hb]
    simp only [deposit, List.length_nil, Nat.zero_add, if_true, Nat.mul_one, Nat.sub_zero]
    split <;> simp
  have hne : who ≠ c.addr s.next := hw _
  refine ⟨c.addr s.next, by rw [h4, upd_same], ?_, ?_, ?_⟩
  · have := hm who
    rw [if_pos rfl, if_neg hne, hc] at this
    unfold wealth
    omega
  · have := hm (c.addr s.next)
    rw [if_pos rfl, if_neg (fun e => hne e.symm), hc] at this
    unfold wealth
    omega
  · intro y h1 h2
    have := hm y
    rw [if_neg h1, if_neg h2] at this
    unfold wealth
    omega

/-- C101. A new delegate costs the holder who registers it the deposit for one more delegate. -/
theorem C101_register {c : Cfg} {g s s' : St} (hs : Reach c (NoKey c) g s) (hr : creations s + 1 < U128)
    {who fp d : Acct} {ty : PType} {deadline sig : Nat} (hh : s.holder who = some fp) (hpos : 0 < c.base + c.factor)
    (h : step c s (.call who (.register fp d ty deadline sig)) = .ok s') :
    wealth s' who + c.factor = wealth s who ∧ wealth s' fp = wealth s fp + c.factor ∧
      ∀ y, y ≠ who → y ≠ fp → wealth s' y = wealth s y := by
  simp only [step, dispatch, bind_ok, ensure_ok] at h
  obtain ⟨_, _, h⟩ := h
  have H := inv hs hr
  have b := books hs
  obtain ⟨_, _, _, _, _, _, _, _, _, _, _, hm, _⟩ := register_ok h
  have hent := H.ent who fp hh
  have hne : who ≠ fp := b.self fp _ hent
  have hlen : 0 < (s.proxies fp).length := List.length_pos_of_mem hent
  have hres : 0 < s.reserved fp := by
    rw [b.reserved, b.dep]
    unfold deposit
    rw [if_neg (by omega)]
    have : c.factor ≤ c.factor * (s.proxies fp).length := Nat.le_mul_of_pos_right _ hlen
    omega
  have hal := b.alive fp hres
  have hc : addCost c s fp = c.factor := by
    unfold addCost
    dsimp only
    rw [if_neg (by omega), b.dep]
    unfold deposit
    rw [if_neg (by omega), if_neg (by omega), Nat.mul_add]
    omega
  rw [hc] at hm
  refine ⟨?_, ?_, ?_⟩
  · have := hm who
    rw [if_pos rfl, if_neg hne] at this
    unfold wealth
    omega
  · have := hm fp
    rw [if_pos rfl, if_neg (fun e => hne e.symm)] at this
    unfold wealth
    omega
  · intro y h1 h2
    have := hm y
    rw [if_neg h1, if_neg h2] at this
    unfold wealth
    omega

/-- C101. Removing a delegate gives the deposit for it to the caller. -/
theorem C101_unregister {c : Cfg} {g s s' : St} (hs : Reach c (NoKey c) g s) (hr : creations s + 1 < U128)
    {who a d : Acct} {fp : Acct} (hh : s.holder a = some fp) (hw : who ≠ fp)
    (h : step c s (.call who (.unregister fp d)) = .ok s') :
    wealth s' who = wealth s who + c.factor ∧ wealth s' fp + c.factor = wealth s fp ∧
      ∀ y, y ≠ who → y ≠ fp → wealth s' y = wealth s y := by
  simp only [step, dispatch, bind_ok, ensure_ok] at h
  obtain ⟨_, _, h⟩ := h
  have H := inv hs hr
  have b := books hs
  obtain ⟨x, hx, hmem, hd, _, _, _, _, _, _, hm, hdep, _⟩ := unregister_ok h
  have hent := H.ent a fp hh
  have hne : (⟨a, .owner, 0⟩ : Def) ≠ ⟨d, x.ty, 0⟩ := by
    intro e
    injection e with e1
    rw [e1] at hh
    exact hd hh
  have hlen : 0 < ((s.proxies fp).erase ⟨d, x.ty, 0⟩).length :=
    List.length_pos_of_mem ((List.mem_erase_of_ne hne).mpr hent)
  have hl := List.length_erase_of_mem hmem
  have hc : s.dep fp - s'.dep fp = c.factor := by
    rw [hdep, upd_same, b.dep]
    unfold deposit
    rw [if_neg (by omega), if_neg (by omega)]
    obtain ⟨k, hk⟩ : ∃ k, (s.proxies fp).length = k + 1 := ⟨(s.proxies fp).length - 1, by omega⟩
    rw [hl, hk, Nat.add_sub_cancel, Nat.mul_add, Nat.mul_one]
    omega
  rw [hc] at hm
  refine ⟨?_, ?_, ?_⟩
  · have := hm who
    rw [if_pos rfl, if_neg hw] at this
    unfold wealth
    omega
  · have := hm fp
    rw [if_pos rfl, if_neg (fun e => hw e.symm)] at this
    unfold wealth
    omega
  · intro y h1 h2
    have := hm y
    rw [if_neg h1, if_neg h2] at this
    unfold wealth
    omega

/-- C101. Giving a futurepass up gives all its deposits to the caller. -/
theorem C101_renounce {c : Cfg} {g s s' : St} (hs : Reach c (NoKey c) g s) (hr : creations s + 1 < U128)
    {who fp : Acct} (hh : s.holder who = some fp) (h : step c s (.call who (.transfer who none)) = .ok s') :
    wealth s' who = wealth s who + (c.base + c.factor * (s.proxies fp).length) ∧ s'.reserved fp = 0 ∧
      s'.free fp = s.free fp ∧ ∀ y, y ≠ who → y ≠ fp → wealth s' y = wealth s y := by
  have hs' := h
  simp only [step, dispatch, bind_ok, ensure_ok] at h
  obtain ⟨_, _, h⟩ := h
  have H := inv hs hr
  have b := books hs
  obtain ⟨fp', h1, _, _, _, _, _, e3, e5, hm, hb, _⟩ := transfer_none h
  have : fp' = fp := by
    rw [hh] at h1
    exact (Option.some.inj h1).symm
  subst this
  have hent := H.ent who fp' hh
  have hne : who ≠ fp' := b.self fp' _ hent
  have hc : s.dep fp' = c.base + c.factor * (s.proxies fp').length := by
    rw [b.dep]
    unfold deposit
    rw [if_neg]
    have := List.length_pos_of_mem hent
    omega
  have b' := hb b
  have hr0 : s'.reserved fp' = 0 := by rw [b'.reserved, e5, upd_same]
  refine ⟨?_, hr0, ?_, ?_⟩
  · have := hm who
    rw [if_pos rfl, if_neg hne, hc] at this
    unfold wealth
    omega
  · have h0 := hm fp'
    rw [if_pos rfl, if_neg (fun e => hne e.symm), hr0] at h0
    have := b.reserved fp'
    omega
  · intro y h1 h2
    have := hm y
    rw [if_neg h1, if_neg h2] at this
    unfold wealth
    omega

example : d3.reserved 1001 = 10 + 5 * 3 ∧ d3.free 1001 = 1 ∧ wealth d3 1 = 1000 - 26 := by decide +kernel
example := C101_unregister reach3 room3 (who := 1) (a := 1) (d := 3) (fp := 1001) (by decide +kernel) (by decide +kernel)
  (ok_getD (d := d3) (by decide +kernel))
example := C101_register reach1 room1 (who := 1) (fp := 1001) (d := 3) (ty := .any) (deadline := 100) (sig := 77)
  (by decide +kernel) (by decide +kernel) (ok_getD (d := d1) (by decide +kernel))
example := C101_renounce reach3 room3 (who := 1) (fp := 1001) (by decide +kernel)
  (ok_getD (d := d3) (by decide +kernel))
example := C101_create reach3 room3 (who := 5) (acc := 6) (key_of (s := d3) (op := .call 5 .other) (by decide +kernel))
  (ok_getD (d := d3) (by decide +kernel))

/-! ## C102: who gets a deposit back -/

/-- The deposit for a delegate goes back to the account that paid it. -/
def C102_full : Prop :=
  ∀ (c : Cfg) (g s s1 s2 : St) (payer caller fp d : Acct) (ty : PType) (deadline sig : Nat),
    Reach c (NoKey c) g s → 0 < c.factor → payer ≠ fp → caller ≠ fp →
    step c s (.call payer (.register fp d ty deadline sig)) = .ok s1 →
    step c s1 (.call caller (.unregister fp d)) = .ok s2 → wealth s2 payer = wealth s payer

/-- C102 is false: a delegate who leaves receives the deposit that the holder paid. -/
theorem C102_refuted : ¬ C102_full := by
  intro h
  have h1 : step cfg d1 opRegister = .ok d2 := after_ok (by decide +kernel)
  have h2 := h cfg g0 d1 d2 _ 1 3 1001 3 .any 100 77 reach1 (by decide) (by decide) (by decide) h1
    (ok_getD (d := d2) (by decide +kernel))
  revert h2
  decide +kernel

/-- C102, what holds: when the holder removes the delegate it paid for, it is as rich as before. -/
theorem C102_partial {c : Cfg} {g s s1 s2 : St} {payer fp d : Acct} {ty : PType} {deadline sig : Nat}
    (hs : Reach c (NoKey c) g s) (hr : creations s + 1 < U128) (hk : ∀ n, payer ≠ c.addr n)
    (hpos : 0 < c.base + c.factor) (hh : s.holder payer = some fp)
    (h1 : step c s (.call payer (.register fp d ty deadline sig)) = .ok s1)
    (h2 : step c s1 (.call payer (.unregister fp d)) = .ok s2) : wealth s2 payer = wealth s payer := by
  have k1 := C101_register hs hr hh hpos h1
  have hs1 : Reach c (NoKey c) g s1 :=
    .step (op := .call payer (.register fp d ty deadline sig)) hs hk h1
  have h1' := h1
  simp only [step, dispatch, bind_ok, ensure_ok] at h1'
  obtain ⟨_, _, h1'⟩ := h1'
  obtain ⟨_, _, _, _, _, _, _, e2, _, e4, _⟩ := register_ok h1'
  have hr1 : creations s1 + 1 < U128 := by
    rw [creations_cons e4]
    exact hr
  have hne : payer ≠ fp := (books hs).self fp _ ((inv hs hr).ent payer fp hh)
  have k2 := C101_unregister hs1 hr1 (a := payer) (by rw [e2]; exact hh) hne h2
  omega

/-! ## C103: the address that is called -/

/-- Asking the contract of a futurepass to transfer its ownership changes the holder of that futurepass only. -/
def C103_full : Prop :=
  ∀ (c : Cfg) (g s s' : St) (who fp new : Acct), Reach c (NoKey c) g s → (∀ n, who ≠ c.addr n) →
    step c s (.evm who (.direct (.pass fp (.transferOwnership new)))) = .ok s' →
    ∀ a fp', fp' ≠ fp → s.holder a = some fp' → s'.holder a = some fp'

/-- C103 is false: the call moves the futurepass of the caller, whichever address is called. -/
theorem C103_refuted : ¬ C103_full := by
  intro h
  have := h cfg g0 d3 _ 1 1002 5 reach3 (key_of (s := d3) (op := .call 1 .other) (by decide +kernel))
    (ok_getD (d := d3) (by decide +kernel)) 1 1001 (by decide) (by decide +kernel)
  revert this
  decide +kernel

/-- C103, what holds: if the caller holds the futurepass that is called, then that one moves and no other. -/
theorem C103_partial {c : Cfg} {g s s' : St} (hs : Reach c (NoKey c) g s) (hr : creations s + 1 < U128)
    {who fp new : Acct} (hh : s.holder who = some fp)
    (h : step c s (.evm who (.direct (.pass fp (.transferOwnership new)))) = .ok s') :
    s'.holder new = some fp ∧ (∀ w, IsDelegate s' fp w ↔ w = new) ∧
      ∀ a fp', fp' ≠ fp → s.holder a = some fp' → s'.holder a = some fp' := by
  have h' : step c s (.call who (.transfer who (some new))) = .ok s' := by
    simp only [step, dispatch, bind_ok, ensure_ok]
    exact ⟨(), rfl, h⟩
  obtain ⟨fp1, k1, k2, k3, k4, _, k6, _⟩ := C53_transfer hs hr h'
  have : fp1 = fp := by
    rw [hh] at k1
    exact (Option.some.inj k1).symm
  subst this
  refine ⟨k2, k4, ?_⟩
  intro a fp' hne ha
  by_cases e1 : a = who
  · rw [e1, hh] at ha
    exact absurd (Option.some.inj ha).symm hne
  · by_cases e2 : a = new
    · exfalso
      obtain ⟨_, _, _, h3, _⟩ := transfer_some (show transfer c s who who (some new) = .ok s' from h)
      rw [← e2, upd_ne _ _ e1, ha] at h3
      cases h3
    · rw [k6 a e2 e1]
      exact ha

example := C103_partial reach3 room3 (who := 1) (fp := 1001) (new := 5) (by decide +kernel)
  (ok_getD (d := d3) (by decide +kernel))

/-! ## C104: contracts that are called -/

/-- Calling a contract that is neither holder nor delegate of anything leaves all futurepasses as they are. -/
def C104_full : Prop :=
  ∀ (c : Cfg) (g s s' : St) (who m : Acct) (deleg : Bool) (a : Act), Reach c (NoKey c) g s →
    NoKey c s (.contract who m deleg a) → s.holder m = none → (∀ n, ¬ IsDelegate s (c.addr n) m) →
    step c s (.contract who m deleg a) = .ok s' →
    ∀ h fp, s.holder h = some fp → s'.holder h = some fp

/-- C104 is false: the precompile accepts DELEGATECALL, so that a contract called by a holder can transfer the
futurepass to itself. -/
theorem C104_refuted : ¬ C104_full := by
  intro h
  have := h cfg g0 d3 _ 1 9 true (.direct (.pass 1001 (.transferOwnership 9))) reach3 (key_of (by decide +kernel))
    (by decide +kernel) ?_ (ok_getD (d := d3) (by decide +kernel)) 1 1001 (by decide +kernel)
  · revert this
    decide +kernel
  · intro n hd
    by_cases hn : 3 ≤ n
    · obtain ⟨d, hd, _⟩ := hd
      rw [(inv reach3 room3).blank n (by
        have : d3.next = 3 := by decide +kernel
        rw [this]
        exact hn)] at hd
      exact absurd hd (List.not_mem_nil)
    · obtain rfl | rfl | rfl : n = 0 ∨ n = 1 ∨ n = 2 := by omega
      all_goals
        revert hd
        decide +kernel

/-- C104, what holds: a plain call by such a contract changes no holder that there is, and no delegate of a futurepass
that has a holder. -/
theorem C104_partial {c : Cfg} {g s s' : St} (hs : Reach c (NoKey c) g s) (hr : creations s + 1 < U128)
    {who m : Acct} {a : Act} (hk : NoKey c s (.contract who m false a)) (hm : s.holder m = none)
    (hd : ∀ n, ¬ IsDelegate s (c.addr n) m) (h : step c s (.contract who m false a) = .ok s') :
    ∀ x fp, s.holder x = some fp → s'.holder x = some fp ∧ s'.proxies fp = s.proxies fp := by
  have H := inv hs hr
  have h := viaContract_ok h
  simp only [Bool.false_eq_true, if_false] at h
  intro x fp hx
  obtain ⟨n, hn, hlt⟩ := H.held x fp hx
  have hsame : Same c s s' → s'.holder x = some fp ∧ s'.proxies fp = s.proxies fp := by
    intro k
    rw [k.1, hn, k.2 n]
    exact ⟨hn ▸ hx, rfl⟩
  cases a with
  | proxied f t =>
    rcases evmProxy_manage h with h | ⟨h, _⟩
    · exact hsame h
    · rw [hm] at h
      cases h
  | direct t =>
    rcases evmCall_manage h with h | h
    · exact hsame h
    · rcases h with ⟨acc, h⟩ | ⟨f, d, ty, dl, sig, h⟩ | ⟨f, d, h⟩ | ⟨cur, new, h⟩
      · obtain ⟨h1, _, _, h4, _, _, h7, _⟩ := create_ok h
        have hne : x ≠ acc := by
          rintro rfl
          rw [h1] at hx
          cases hx
        have hf : fp ≠ c.addr s.next := by
          rw [hn]
          intro e
          have := c.addr_inj _ _ e
          omega
        rw [h4, upd_ne _ _ hne, h7, upd_ne _ _ hf]
        exact ⟨hx, rfl⟩
      · obtain ⟨h1, _, _, _, _, _, _, e2, _, _, e3, _⟩ := register_ok h
        rcases h1 with h1 | h1
        · have hf : fp ≠ f := by
            rw [hn, ← h1]
            exact fun e => (hk n).2 e.symm
          rw [e2, e3, upd_ne _ _ hf]
          exact ⟨hx, rfl⟩
        · rw [hm] at h1
          cases h1
      · obtain ⟨y, _, hmem, _, h2, _, e2, _, _, e3, _⟩ := unregister_ok h
        rcases h2 with h2 | h2 | h2
        · rw [hm] at h2
          cases h2
        · have hf : fp ≠ f := by
            rw [hn, ← h2]
            exact fun e => (hk n).2 e.symm
          rw [e2, e3, upd_ne _ _ hf]
          exact ⟨hx, rfl⟩
        · have hf : fp ≠ f := by
            rintro rfl
            rw [← h2, hn] at hmem
            exact hd n ⟨_, hmem, rfl⟩
          rw [e2, e3, upd_ne _ _ hf]
          exact ⟨hx, rfl⟩
      · exfalso
        have key : ∀ {fp'}, s.holder cur = some fp' → (m = cur ∨ fp' = m) → False := by
          intro fp' k1 k2
          rcases k2 with k2 | k2
          · rw [← k2, hm] at k1
            cases k1
          · obtain ⟨n', k3, _⟩ := H.held cur fp' k1
            exact (hk n').2 (k2.symm.trans k3)
        cases new with
        | none =>
          obtain ⟨fp', k1, k2, _⟩ := transfer_none h
          exact key k1 k2
        | some y =>
          obtain ⟨fp', k1, k2, _⟩ := transfer_some h
          exact key k1 k2

example : ∃ s', step cfg d3 (.contract 1 9 false (.direct (.registrar (some 9)))) = .ok s' ∧
    s'.holder 9 = some 1003 ∧ s'.holder 1 = some 1001 := by
  exact ⟨_, ok_getD (d := d3) (by decide +kernel), by decide +kernel⟩

/-! ## C105: the holder can manage -/

/-- Whatever the holder can do directly with a delegate it can also have the futurepass do. -/
def C105_full : Prop :=
  ∀ (c : Cfg) (g s s1 s2 : St) (a fp d : Acct), Reach c (NoKey c) g s → (∀ n, a ≠ c.addr n) → s.holder a = some fp →
    step c s (.call a (.unregister fp d)) = .ok s1 →
    step c s (.call a (.proxyExtrinsic fp (.unregister fp d))) = .ok s2 → ¬ IsDelegate s2 fp d

/-- C105 is false: a delegate to whom a futurepass is transferred keeps its old entry, which comes first, so that what
it proxies is judged as a delegate's. -/
theorem C105_refuted : ¬ C105_full := by
  intro h
  have := h cfg g0 (exec cfg g0 [opCreate, opRegister, opRegister4, .call 1 (.transfer 1 (some 4)),
      .call 4 (.register 1001 3 .any 100 77)]) _ _ 4 1001 3 (reach _ (by decide +kernel))
    (key_of (s := d3) (op := .call 4 .other) (by decide +kernel)) (by decide +kernel)
    (ok_getD (d := d3) (by decide +kernel)) (ok_getD (d := d3) (by decide +kernel))
  revert this
  decide +kernel

/-- C105, what holds: a holder that is alive can always remove a delegate by calling directly. -/
theorem C105_partial {c : Cfg} {g s : St} (hs : Reach c (NoKey c) g s) (hr : creations s + 1 < U128)
    {a fp d : Acct} (hh : s.holder a = some fp) (hd : IsDelegate s fp d) (hne : d ≠ a) (hal : c.ed ≤ s.free a) :
    ∃ s', step c s (.call a (.unregister fp d)) = .ok s' := by
  have H := inv hs hr
  have b := books hs
  obtain ⟨n, hn, _⟩ := H.held a fp hh
  have h1 : s.holder d ≠ some fp := fun e => hne (H.inj d a fp e hh)
  have hent := H.ent a fp hh
  have haf : a ≠ fp := b.self fp _ hent
  obtain ⟨x, hx⟩ : ∃ x, findProxy s fp d none = some x := by
    cases hf : findProxy s fp d none with
    | some x => exact ⟨x, rfl⟩
    | none =>
      obtain ⟨y, hy, e⟩ := hd
      exact absurd e (findProxy_none.mp hf y hy)
  obtain ⟨hx1, hx2, _⟩ := findProxy_some hx
  have hdelay : x.delay = 0 := by
    rw [hn] at hx1
    exact (H.own n x hx1).1
  have hxe : (⟨d, x.ty, 0⟩ : Def) = x := by
    cases x
    simp only at hx2 hdelay
    subst hx2 hdelay
    rfl
  have hl := List.length_erase_of_mem hx1
  have hmono : ¬ s.dep fp < deposit c ((s.proxies fp).erase x).length := by
    rw [b.dep, hl]
    have hpos := List.length_pos_of_mem hx1
    unfold deposit
    rw [if_neg (show ¬ (s.proxies fp).length = 0 by omega)]
    split
    · omega
    · have : c.factor * ((s.proxies fp).length - 1) ≤ c.factor * (s.proxies fp).length :=
        Nat.mul_le_mul_left _ (by omega)
      omega
  have hset : ∃ s1, setDeposit c s fp ((s.proxies fp).erase x) = .ok s1 := by
    unfold setDeposit
    dsimp only
    rw [if_neg hmono]
    exact ⟨_, rfl⟩
  obtain ⟨s1, hset⟩ := hset
  obtain ⟨_, p1, p2, p3, p4, p5, p6, p7, _⟩ := setDeposit_ok hset
  have hpay : ∃ s2, pay c s1 fp a (s.dep fp - s1.dep fp) true = .ok s2 := by
    unfold pay
    split
    · exact ⟨_, rfl⟩
    · rename_i hx0
      push Not at hx0
      have e1 : s1.dep fp = deposit c ((s.proxies fp).erase x).length := by rw [p2, upd_same]
      have hres := b.reserved fp
      have := b.alive fp (by omega)
      rw [ensure_pos (show _ + (if true = true ∨ 0 < s1.reserved fp then c.ed else 0) ≤ s1.free fp by
        rw [if_pos (Or.inl rfl)]
        omega), ensure_pos (show c.ed ≤ s1.free a + _ by
          rw [(p3 a haf).1]
          omega)]
      exact ⟨_, rfl⟩
  obtain ⟨s2, hpay⟩ := hpay
  have hrm : removeDelegate c s a fp d = .ok s2 := by
    unfold removeDelegate
    rw [hx]
    simp only [okOr, bind_ok]
    refine ⟨x, rfl, s1, ?_, hpay⟩
    unfold removeProxy
    rw [hxe, ensure_pos hx1]
    exact hset
  refine ⟨{ s2 with events := .unregistered fp d :: s2.events }, ?_⟩
  simp only [step, dispatch, bind_ok, ensure_ok]
  refine ⟨(), rfl, ?_⟩
  unfold unregister
  simp only [bind_ok, ensure_ok, pure_ok]
  exact ⟨(), h1, (), .inl hh, (), by rw [hx]; simp, s2, hrm, rfl⟩

example := C105_partial reach3 room3 (a := 1) (fp := 1001) (d := 3) (by decide +kernel) (by decide +kernel)
  (by decide) (by decide +kernel)

/-! ## C106: calls return -/

/-- No call through a futurepass crashes. -/
def C106_full : Prop :=
  ∀ (c : Cfg) (g s : St) (op : Op), Reach c (NoKey c) g s → NoKey c s op → step c s op ≠ .error "Panic"

/-- C106 is false: a call through a futurepass to another futurepass with less than four bytes of data, such as a plain
payment, crashes. -/
theorem C106_refuted : ¬ C106_full := by
  intro h
  exact h cfg g0 d3 (.evm 3 (.proxied 1001 (.pass 1002 .short))) reach3 (key_of (by decide +kernel)) rfl

/-- An EVM action that goes through a futurepass to a futurepass or to the registrar with less than four bytes of call
data. -/
def IsShort : Act → Prop
  | .proxied _ (.pass _ .short) => True
  | .proxied _ (.registrar none) => True
  | _ => False

/-- Does not crash. -/
def Calm {α : Type} (x : Except Err α) : Prop := x ≠ .error "Panic"

theorem Calm.ensure {p : Prop} [Decidable p] {e : Err} (h : e ≠ "Panic") : Calm (ensure p e) := by
  intro k
  exact h (ensure_err.mp k).2

theorem Calm.okOr {α : Type} {o : Option α} {e : Err} (h : e ≠ "Panic") : Calm (okOr o e) := by
  intro k
  exact h (okOr_err.mp k).2

theorem Calm.pure {α : Type} {a : α} : Calm (pure a : Except Err α) := fun h => pure_err h

theorem Calm.ok {α : Type} {a : α} : Calm (.ok a : Except Err α) := fun h => nomatch h

theorem Calm.bind {α β : Type} {x : Except Err α} {f : α → Except Err β} (h : Calm x) (k : ∀ a, Calm (f a)) :
    Calm (x >>= f) := by
  intro e
  rcases bind_err.mp e with e | ⟨a, _, e⟩
  · exact h e
  · exact k a e

theorem calm_pay {c : Cfg} {s : St} {a b : Acct} {x : Nat} {k : Bool} : Calm (pay c s a b x k) := by
  unfold pay
  split
  · exact Calm.ok
  · exact (Calm.ensure (by decide)).bind fun _ => (Calm.ensure (by decide)).bind fun _ => Calm.pure

theorem calm_setDeposit {c : Cfg} {s : St} {a : Acct} {l : List Def} : Calm (setDeposit c s a l) := by
  unfold setDeposit
  dsimp only
  split
  · exact (Calm.ensure (by decide)).bind fun _ => Calm.pure
  · exact Calm.pure

theorem calm_addProxy {c : Cfg} {s : St} {a : Acct} {d : Def} : Calm (addProxy c s a d) := by
  unfold addProxy
  exact (Calm.ensure (by decide)).bind fun _ => (Calm.ensure (by decide)).bind fun _ =>
    (Calm.ensure (by decide)).bind fun _ => calm_setDeposit

theorem calm_removeProxy {c : Cfg} {s : St} {a : Acct} {d : Def} : Calm (removeProxy c s a d) := by
  unfold removeProxy
  exact (Calm.ensure (by decide)).bind fun _ => calm_setDeposit

theorem calm_addDelegate {c : Cfg} {s : St} {a fp d : Acct} {ty : PType} : Calm (addDelegate c s a fp d ty) := by
  unfold addDelegate
  exact calm_pay.bind fun _ => calm_addProxy

theorem calm_removeDelegate {c : Cfg} {s : St} {a fp d : Acct} : Calm (removeDelegate c s a fp d) := by
  unfold removeDelegate
  exact (Calm.okOr (by decide)).bind fun _ => calm_removeProxy.bind fun _ => calm_pay

theorem calm_create {c : Cfg} {s : St} {a b : Acct} : Calm (create c s a b) := by
  unfold create
  exact (Calm.ensure (by decide)).bind fun _ => calm_addDelegate.bind fun _ => Calm.pure

theorem calm_register {c : Cfg} {s : St} {a fp d : Acct} {ty : PType} {dl sig : Nat} :
    Calm (register c s a fp d ty dl sig) := by
  unfold register
  exact (Calm.ensure (by decide)).bind fun _ => (Calm.ensure (by decide)).bind fun _ =>
    (Calm.ensure (by decide)).bind fun _ => (Calm.ensure (by decide)).bind fun _ =>
    (Calm.ensure (by decide)).bind fun _ => (Calm.okOr (by decide)).bind fun _ =>
    (Calm.ensure (by decide)).bind fun _ => calm_addDelegate.bind fun _ => Calm.pure

theorem calm_unregister {c : Cfg} {s : St} {a fp d : Acct} : Calm (unregister c s a fp d) := by
  unfold unregister
  exact (Calm.ensure (by decide)).bind fun _ => (Calm.ensure (by decide)).bind fun _ =>
    (Calm.ensure (by decide)).bind fun _ => calm_removeDelegate.bind fun _ => Calm.pure

theorem calm_removeOthers {c : Cfg} {a fp n : Acct} : ∀ {l : List Def} {s : St}, Calm (removeOthers c a fp n l s)
  | [], _ => Calm.ok
  | d :: ds, s => by
    simp only [removeOthers]
    split
    · exact calm_removeDelegate.bind fun _ => calm_removeOthers
    · exact calm_removeOthers

theorem calm_transfer {c : Cfg} {s : St} {a cur : Acct} {new : Option Acct} : Calm (transfer c s a cur new) := by
  unfold transfer
  refine (Calm.okOr (by decide)).bind fun _ => (Calm.ensure (by decide)).bind fun _ => ?_
  refine Calm.bind ?_ fun _ => Calm.pure
  cases new with
  | none => exact calm_pay
  | some n =>
    exact (Calm.ensure (by decide)).bind fun _ => calm_addDelegate.bind fun _ => calm_removeOthers.bind fun _ =>
      Calm.pure

theorem calm_dispatch {c : Cfg} : ∀ (call : Call) {s : St} {a : Acct} {f : Option PType}, Calm (dispatch c call s a f)
  | .create _, _, _, _ => (Calm.ensure (by decide)).bind fun _ => calm_create
  | .register .., _, _, _ => (Calm.ensure (by decide)).bind fun _ => calm_register
  | .unregister .., _, _, _ => (Calm.ensure (by decide)).bind fun _ => calm_unregister
  | .transfer .., _, _, _ => (Calm.ensure (by decide)).bind fun _ => calm_transfer
  | .proxyExtrinsic fp call, s, a, f => by
    simp only [dispatch]
    refine (Calm.ensure (by decide)).bind fun _ => (Calm.ensure (by decide)).bind fun _ =>
      (Calm.ensure (by decide)).bind fun _ => (Calm.ensure (by decide)).bind fun _ =>
      (Calm.okOr (by decide)).bind fun d => (Calm.ensure (by decide)).bind fun _ => ?_
    split
    · exact Calm.ok
    · exact Calm.ok
  | .proxy real force call, s, a, f => by
    simp only [dispatch]
    refine (Calm.ensure (by decide)).bind fun _ =>
      (Calm.okOr (by decide)).bind fun d => (Calm.ensure (by decide)).bind fun _ => ?_
    split
    · exact Calm.ok
    · exact Calm.ok
  | .addProxy _, _, _, _ => (Calm.ensure (by decide)).bind fun _ => calm_addProxy
  | .removeProxy _, _, _, _ => (Calm.ensure (by decide)).bind fun _ => calm_removeProxy
  | .removeProxies, _, _, _ => (Calm.ensure (by decide)).bind fun _ => calm_setDeposit
  | .batch all a b, s, w, f => by
    simp only [dispatch]
    refine (Calm.ensure (by decide)).bind fun _ => ?_
    have ha := calm_dispatch (c := c) a (s := s) (a := w) (f := f)
    cases hda : dispatch c a s w f with
    | error e =>
      dsimp only
      split
      · rw [hda] at ha
        exact fun k => ha (congrArg Except.error (Except.error.inj k))
      · exact Calm.ok
    | ok s1 =>
      have hb := calm_dispatch (c := c) b (s := s1) (a := w) (f := f)
      dsimp only
      cases hdb : dispatch c b s1 w f with
      | error e =>
        dsimp only
        split
        · rw [hdb] at hb
          exact fun k => hb (congrArg Except.error (Except.error.inj k))
        · exact Calm.ok
      | ok s2 => exact Calm.ok
  | .send .., _, _, _ => (Calm.ensure (by decide)).bind fun _ => calm_pay
  | .transact, _, _, _ => (Calm.ensure (by decide)).bind fun _ => Calm.pure
  | .other, _, _, _ => (Calm.ensure (by decide)).bind fun _ => Calm.pure

theorem calm_evmCall {c : Cfg} {s : St} {a : Acct} {t : Target} : Calm (evmCall c s a t) := by
  cases t with
  | other => exact Calm.ok
  | registrar x =>
    cases x with
    | none => exact fun h => absurd (Except.error.inj h) (by decide)
    | some b => exact calm_create
  | pass fp sel =>
    cases sel with
    | register d ty dl sig => exact calm_register
    | unregister d => exact calm_unregister
    | transferOwnership n => exact (calm_transfer : Calm (transfer c s a a (some n)))
    | renounceOwnership => exact (calm_transfer : Calm (transfer c s a a none))
    | short => exact fun h => absurd (Except.error.inj h) (by decide)
    | unknown => exact fun h => absurd (Except.error.inj h) (by decide)

theorem calm_runAct {c : Cfg} {s : St} {w : Acct} {a : Act} (h : ¬ IsShort a) : Calm (runAct c s w a) := by
  cases a with
  | direct t => exact calm_evmCall
  | proxied fp t =>
    have h1 : Calm (evmManages t) := by
      unfold evmManages
      split
      all_goals first | exact Calm.ok | exact absurd trivial h
    have h2 : ∀ ty, Calm (evmFilter ty t) := by
      intro ty
      unfold evmFilter
      split
      all_goals first | exact Calm.ok | exact absurd trivial h
    exact h1.bind fun _ => (Calm.ensure (by decide)).bind fun _ => (Calm.okOr (by decide)).bind fun _ =>
      (Calm.ensure (by decide)).bind fun _ => (h2 _).bind fun _ => (Calm.ensure (by decide)).bind fun _ => calm_evmCall

/-- C106, what holds: nothing else crashes, in any state, signed or from the EVM. -/
theorem C106_partial {c : Cfg} {s : St} {op : Op}
    (h : ∀ a, (∃ w, op = .evm w a) ∨ (∃ w m d, op = .contract w m d a) → ¬ IsShort a) :
    step c s op ≠ .error "Panic" := by
  cases op with
  | call w call => exact calm_dispatch call
  | evm w a => exact calm_runAct (h a (.inl ⟨w, rfl⟩))
  | contract w m d a =>
    have := h a (.inr ⟨w, m, d, rfl⟩)
    show Calm (viaContract c s w m d a)
    unfold viaContract
    split
    · exact (Calm.ensure (by decide)).bind fun _ => calm_runAct this
    · exact calm_runAct this
  | block => exact Calm.ok
  | endow a x => exact Calm.ok

end Verif.Futurepass
