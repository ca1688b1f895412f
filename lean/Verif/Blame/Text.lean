import Verif.Blame.Props
import Verif.Abi.Props

/-!
# C253: what is read from the text of a revert
-/

namespace Verif.Blame

open Abi (Byte Ty Tys usizeMax u32Max callData word)

/-! ## Specification -/

/-- Letters, digits and `_`. -/
def wordByte (b : Byte) : Bool := decide ((48 ≤ b.val ∧ b.val ≤ 57) ∨ (65 ≤ b.val ∧ b.val ≤ 90) ∨ b.val = 95 ∨ (97 ≤ b.val ∧ b.val ≤ 122))

/-- An identifier: letters, digits and `_`, the first not a digit. -/
def Ident (f : List Byte) : Prop := ∃ b r, f = b :: r ∧ (∀ x ∈ f, wordByte x = true) ∧ ¬ (48 ≤ b.val ∧ b.val ≤ 57)

/-- A part as the readers make it: a name, or an index of 32 bits. -/
def PartOk : Part → Prop
  | .field f => Ident f
  | .tuple i => i < U32
  | .array i => i < U32

/-- A reason as the readers give it: not one with free text, and what could not be read is called something without a colon. -/
def ReasonOk : Reason → Prop
  | .custom _ => False
  | .readOutOfBounds what => 58 ∉ what
  | .valueIsTooLarge what => 58 ∉ what
  | .expectedAtLeast n => n < U32
  | _ => True

/-- The types of the arguments of Solidity's `Error(string)`. -/
def errorTypes : Tys := .cons (.bytes u32Max) .nil

/-! ## Numbers and runs of letters -/

theorem num_inj {n m : Nat} (hn : n < U32) (hm : m < U32) (e : num n = num m) : n = m := Uri.decimal_inj hn hm e

theorem num_digits (n : Nat) : Uri.Digits (num n) := by
  rcases Uri.decimal_digits 10 n (by decide) with h | h
  · exact h
  · exact absurd h (by decide)

theorem num_word (n : Nat) : ∀ x ∈ num n, wordByte x = true := by
  intro x hx
  have := (num_digits n).2 x hx
  exact decide_eq_true (.inl this)

/-- Nothing, or something that does not begin with a letter, a digit or `_`. -/
def Stops (s : List Byte) : Prop := ∀ b r, s = b :: r → wordByte b = false

theorem run_inj : ∀ {a b s t : List Byte}, (∀ x ∈ a, wordByte x = true) → (∀ x ∈ b, wordByte x = true) → Stops s → Stops t →
    a ++ s = b ++ t → a = b ∧ s = t
  | [], [], _, _, _, _, _, _, e => ⟨rfl, e⟩
  | [], y :: b, s, t, _, hb, hs, _, e => by
    have h1 := hs y (b ++ t) e
    have h2 := hb y (List.mem_cons_self)
    rw [h1] at h2
    cases h2
  | x :: a, [], s, t, ha, _, _, ht, e => by
    have h1 := ht x (a ++ s) e.symm
    have h2 := ha x (List.mem_cons_self)
    rw [h1] at h2
    cases h2
  | x :: a, y :: b, s, t, ha, hb, hs, ht, e => by
    obtain ⟨rfl, e'⟩ := List.cons.inj e
    obtain ⟨rfl, rfl⟩ := run_inj (fun z hz => ha z (List.mem_cons_of_mem _ hz)) (fun z hz => hb z (List.mem_cons_of_mem _ hz)) hs ht e'
    exact ⟨rfl, rfl⟩

/-! ## Paths -/

/-- The parts after the first. -/
def restText (ps : List Part) : List Byte := (ps.map partText).flatten

theorem restText_cons (p : Part) (ps : List Part) : restText (p :: ps) = partText p ++ restText ps := rfl

theorem part_head (p : Part) : ∃ b r, partText p = b :: r ∧ (b.val = 46 ∨ b.val = 91) := by
  cases p with
  | field f => exact ⟨46, f, rfl, .inl rfl⟩
  | tuple i => exact ⟨46, num i, rfl, .inl rfl⟩
  | array i => exact ⟨91, num i ++ [93], rfl, .inr rfl⟩

theorem rest_stops (ps : List Part) (t : List Byte) (ht : Stops t) : Stops (restText ps ++ t) := by
  cases ps with
  | nil => exact ht
  | cons p ps =>
    intro b r e
    obtain ⟨b', r', hp, hb⟩ := part_head p
    rw [restText_cons, hp] at e
    obtain ⟨rfl, _⟩ := List.cons.inj e
    exact decide_eq_false (by omega)

/-- A text that ends the path: nothing, or a colon. -/
def Ends (t : List Byte) : Prop := t = [] ∨ ∃ r, t = 58 :: r

theorem Ends.stops {t : List Byte} (h : Ends t) : Stops t := by
  rintro b r rfl
  rcases h with h | ⟨r', h⟩
  · cases h
  · obtain ⟨rfl, _⟩ := List.cons.inj h
    decide

theorem close_stops (s : List Byte) : Stops ([93] ++ s) := by
  intro b r e
  obtain ⟨rfl, _⟩ := List.cons.inj e
  decide

theorem ident_ne_num {f : List Byte} (h : Ident f) (n : Nat) : f ≠ num n := by
  rintro rfl
  obtain ⟨b, r, e, _, hb⟩ := h
  exact hb ((num_digits n).2 b (by rw [e]; exact List.mem_cons_self))

theorem rest_inj : ∀ (ps qs : List Part) (s t : List Byte), (∀ p ∈ ps, PartOk p) → (∀ q ∈ qs, PartOk q) → Ends s → Ends t →
    restText ps ++ s = restText qs ++ t → ps = qs ∧ s = t
  | [], [], _, _, _, _, _, _, e => ⟨rfl, e⟩
  | [], q :: qs, s, t, _, _, hs, _, e => by
    exfalso
    obtain ⟨b, r, hq, hb⟩ := part_head q
    rw [restText_cons, hq] at e
    have e : s = b :: (r ++ restText qs ++ t) := by simpa [restText] using e
    rcases hs with rfl | ⟨r', rfl⟩
    · cases e
    · obtain ⟨rfl, _⟩ := List.cons.inj e
      revert hb
      decide
  | p :: ps, [], s, t, _, _, _, ht, e => by
    exfalso
    obtain ⟨b, r, hp, hb⟩ := part_head p
    rw [restText_cons, hp] at e
    have e : t = b :: (r ++ restText ps ++ s) := by simpa [restText] using e.symm
    rcases ht with rfl | ⟨r', rfl⟩
    · cases e
    · obtain ⟨rfl, _⟩ := List.cons.inj e
      revert hb
      decide
  | p :: ps, q :: qs, s, t, hp, hq, hs, ht, e => by
    have hp1 := hp p List.mem_cons_self
    have hq1 := hq q List.mem_cons_self
    have sp := rest_stops ps s hs.stops
    have sq := rest_stops qs t ht.stops
    rw [restText_cons, restText_cons, List.append_assoc, List.append_assoc] at e
    have fin : restText ps ++ s = restText qs ++ t → ps = qs ∧ s = t :=
      rest_inj ps qs s t (fun z hz => hp z (List.mem_cons_of_mem _ hz)) (fun z hz => hq z (List.mem_cons_of_mem _ hz)) hs ht
    cases p with
    | field f =>
      obtain ⟨_, _, _, hf, _⟩ := id hp1
      cases q with
      | field g =>
        obtain ⟨_, _, _, hg, _⟩ := id hq1
        obtain ⟨rfl, e3⟩ := run_inj hf hg sp sq (List.cons.inj e).2
        obtain ⟨rfl, rfl⟩ := fin e3
        exact ⟨rfl, rfl⟩
      | tuple j => exact absurd (run_inj hf (num_word j) sp sq (List.cons.inj e).2).1 (ident_ne_num hp1 j)
      | array j => exact absurd (List.cons.inj e).1 (by decide)
    | tuple i =>
      cases q with
      | field g =>
        obtain ⟨_, _, _, hg, _⟩ := id hq1
        exact absurd (run_inj (num_word i) hg sp sq (List.cons.inj e).2).1.symm (ident_ne_num hq1 i)
      | tuple j =>
        obtain ⟨h, e3⟩ := run_inj (num_word i) (num_word j) sp sq (List.cons.inj e).2
        obtain rfl := num_inj hp1 hq1 h
        obtain ⟨rfl, rfl⟩ := fin e3
        exact ⟨rfl, rfl⟩
      | array j => exact absurd (List.cons.inj e).1 (by decide)
    | array i =>
      cases q with
      | field g => exact absurd (List.cons.inj e).1 (by decide)
      | tuple j => exact absurd (List.cons.inj e).1 (by decide)
      | array j =>
        have e2 : num i ++ ([93] ++ (restText ps ++ s)) = num j ++ ([93] ++ (restText qs ++ t)) := by
          have := (List.cons.inj e).2
          simpa [List.append_assoc] using this
        obtain ⟨h, e3⟩ := run_inj (num_word i) (num_word j) (close_stops _) (close_stops _) e2
        obtain rfl := num_inj hp1 hq1 h
        obtain ⟨rfl, rfl⟩ := fin (List.cons.inj e3).2
        exact ⟨rfl, rfl⟩

theorem pathText_cons (p : Part) (ps : List Part) : pathText (p :: ps) = firstText p ++ restText ps := rfl

theorem first_other {p : Part} (h : ∀ f, p ≠ .field f) : firstText p = partText p := by
  cases p with
  | field f => exact absurd rfl (h f)
  | tuple i => rfl
  | array i => rfl

theorem path_inj (ps qs : List Part) (s t : List Byte) (hp : ∀ p ∈ ps, PartOk p) (hq : ∀ q ∈ qs, PartOk q) (hs : Ends s) (ht : Ends t)
    (e : pathText ps ++ s = pathText qs ++ t) : ps = qs ∧ s = t := by
  have field_first : ∀ (f : List Byte) (ps qs : List Part) (s t : List Byte), Ident f → Ends t → (∀ q r, qs = q :: r → ∀ g, q ≠ .field g) →
      pathText (.field f :: ps) ++ s = pathText qs ++ t → False := by
    intro f ps qs s t hf ht hq e
    obtain ⟨b, r, rfl, hw, _⟩ := hf
    have hb := hw b List.mem_cons_self
    rw [pathText_cons] at e
    cases qs with
    | nil =>
      rcases ht with rfl | ⟨r', rfl⟩
      · cases e
      · obtain ⟨rfl, _⟩ := List.cons.inj e
        revert hb
        decide
    | cons q qs =>
      obtain ⟨b', r', hq', hb'⟩ := part_head q
      rw [pathText_cons, first_other (hq q qs rfl), hq'] at e
      obtain ⟨rfl, _⟩ := List.cons.inj e
      have := of_decide_eq_true hb
      omega
  have asRest : ∀ (ps : List Part), (∀ q r, ps = q :: r → ∀ g, q ≠ .field g) → pathText ps = restText ps := by
    intro ps h
    cases ps with
    | nil => rfl
    | cons p ps => rw [pathText_cons, restText_cons, first_other (h p ps rfl)]
  by_cases h1 : ∃ f r, ps = .field f :: r
  · obtain ⟨f, ps, rfl⟩ := h1
    have hf : Ident f := hp _ List.mem_cons_self
    by_cases h2 : ∃ g r, qs = .field g :: r
    · obtain ⟨g, qs, rfl⟩ := h2
      have hg : Ident g := hq _ List.mem_cons_self
      obtain ⟨_, _, _, wf, _⟩ := id hf
      obtain ⟨_, _, _, wg, _⟩ := id hg
      rw [pathText_cons, pathText_cons, List.append_assoc, List.append_assoc] at e
      obtain ⟨h, e⟩ := run_inj wf wg (rest_stops ps s hs.stops) (rest_stops qs t ht.stops) e
      obtain ⟨rfl, rfl⟩ := rest_inj ps qs s t (fun z hz => hp z (List.mem_cons_of_mem _ hz)) (fun z hz => hq z (List.mem_cons_of_mem _ hz)) hs ht e
      subst h
      exact ⟨rfl, rfl⟩
    · exact (field_first f ps qs s t hf ht (fun q r h g h' => h2 ⟨g, r, by rw [h, h']⟩) e).elim
  · by_cases h2 : ∃ g r, qs = .field g :: r
    · obtain ⟨g, qs, rfl⟩ := h2
      exact (field_first g qs ps t s (hq _ List.mem_cons_self) hs (fun q r h f h' => h1 ⟨f, r, by rw [h, h']⟩) e.symm).elim
    · rw [asRest ps fun q r h g h' => h1 ⟨g, r, by rw [h, h']⟩, asRest qs fun q r h g h' => h2 ⟨g, r, by rw [h, h']⟩] at e
      exact rest_inj ps qs s t hp hq hs ht e

/-! ## C253 -/

/-- **C253** — the text of a path tells the path: different places within the arguments are written differently. -/
theorem C253_path (ps qs : List Part) (hp : ∀ p ∈ ps, PartOk p) (hq : ∀ q ∈ qs, PartOk q) (h : pathText ps = pathText qs) : ps = qs :=
  (path_inj ps qs [] [] hp hq (.inl rfl) (.inl rfl) (by rw [List.append_nil, List.append_nil]; exact h)).1

theorem reason_inj {k l : Reason} (hk : ReasonOk k) (hl : ReasonOk l) (e : reasonText k = reasonText l) : k = l := by
  have both : ∀ {n m : Nat}, n < U32 → m < U32 → tExpected ++ num n ++ tArguments = tExpected ++ num m ++ tArguments → n = m := by
    intro n m hn hm e
    rw [List.append_assoc, List.append_assoc] at e
    exact num_inj hn hm (List.append_cancel_right (List.append_cancel_left e))
  have outs : ∀ {a b : List Byte}, tTried ++ a ++ tOut = tTried ++ b ++ tOut → a = b := by
    intro a b e
    rw [List.append_assoc, List.append_assoc] at e
    exact List.append_cancel_right (List.append_cancel_left e)
  cases k <;> cases l <;> first
    | exact hk.elim
    | exact hl.elim
    | rfl
    | exact congrArg _ (outs e)
    | exact congrArg _ (List.append_cancel_left e)
    | exact congrArg _ (both hk hl e)
    | exact absurd (List.cons.inj e).1 (by decide)

theorem num_colon (n : Nat) : (58 : Byte) ∉ num n := by
  intro h
  have := (num_digits n).2 58 h
  revert this
  decide

theorem reason_colon {k : Reason} (hk : ReasonOk k) : (58 : Byte) ∉ reasonText k := by
  cases k with
  | custom s => exact hk.elim
  | readOutOfBounds w =>
    have h1 : (58 : Byte) ∉ tTried := by decide
    have h2 : (58 : Byte) ∉ tOut := by decide
    have h3 : (58 : Byte) ∉ w := hk
    simp only [reasonText, List.mem_append, h1, h2, h3, or_self, not_false_eq_true]
  | unknownSelector => decide
  | valueIsTooLarge w =>
    have h1 : (58 : Byte) ∉ tLarge := by decide
    have h3 : (58 : Byte) ∉ w := hk
    simp only [reasonText, List.mem_append, h1, h3, or_self, not_false_eq_true]
  | pointerToOutofBound => decide
  | cursorOverflow => decide
  | expectedAtLeast n =>
    have h1 : (58 : Byte) ∉ tExpected := by decide
    have h2 : (58 : Byte) ∉ tArguments := by decide
    simp only [reasonText, List.mem_append, h1, h2, num_colon n, or_self, not_false_eq_true]

theorem text_eq (e : Revert) : e.text = (if e.path = [] then [] else pathText e.path ++ [58, 32]) ++ reasonText e.reason := by
  unfold Revert.text Revert.path backtraceText
  by_cases h : e.backtrace = []
  · rw [if_pos h, if_pos (by rw [h]; rfl)]
  · rw [if_neg h, if_neg (by simpa using h)]

/-- **C253** — the text of a revert tells what was wrong and where: of reverts that the readers make, two with the same text have the same
place and the same reason. -/
theorem C253_text (e f : Revert) (he : ∀ p ∈ e.path, PartOk p) (hf : ∀ p ∈ f.path, PartOk p) (ke : ReasonOk e.reason) (kf : ReasonOk f.reason)
    (h : e.text = f.text) : e.path = f.path ∧ e.reason = f.reason := by
  rw [text_eq, text_eq] at h
  by_cases h1 : e.path = []
  · rw [if_pos h1] at h
    by_cases h2 : f.path = []
    · rw [if_pos h2] at h
      exact ⟨by rw [h1, h2], reason_inj ke kf h⟩
    · rw [if_neg h2] at h
      exact absurd (by rw [List.nil_append] at h; rw [h]; simp) (reason_colon ke)
  · rw [if_neg h1] at h
    by_cases h2 : f.path = []
    · rw [if_pos h2] at h
      exact absurd (by rw [List.nil_append] at h; rw [← h]; simp) (reason_colon kf)
    · rw [if_neg h2, List.append_assoc, List.append_assoc] at h
      obtain ⟨hp, hk⟩ := path_inj _ _ _ _ he hf (.inr ⟨_, rfl⟩) (.inr ⟨_, rfl⟩) h
      exact ⟨hp, reason_inj ke kf (List.append_cancel_left (as := [58, 32]) hk)⟩

/-- **C253** — what a contract gets from a built-in one that reverts with a text is `Error(text)` as Solidity encodes it, and decoding it as
that gives the text back. -/
theorem C253_output (e : Revert) (h : e.text.length ≤ u32Max) : ∃ out, e.output = some out ∧
    out = callData 0x08c379a0 errorTypes (e.text, ()) ∧
    (out.length ≤ usizeMax → Abi.readArgs errorTypes out = .ok (e.text, ())) := by
  have hf : errorTypes.fits (e.text, ()) := ⟨h, trivial⟩
  have hp : errorTypes.proper := ⟨trivial, trivial⟩
  have hw : e.output = some (callData 0x08c379a0 errorTypes (e.text, ())) := by
    have := Abi.C159_call errorTypes (e.text, ()) hf 0x08c379a0
    exact this
  refine ⟨_, hw, rfl, fun hl => ?_⟩
  have := Abi.C160_arguments errorTypes (e.text, ()) hp hf 0x08c379a0 [] (by rw [List.append_nil]; exact hl)
  rw [List.append_nil] at this
  exact this

/-- A function `f(address to, uint8[] tokenIds)`; in Rust `to` and `token_ids`. -/
def demoTypes : Tys := .cons (.prim .address) (.cons (.array (.prim (.uint 8)) u32Max) .nil)

def demoNames : List (List Byte) := [[116, 111], [116, 111, 107, 101, 110, 95, 105, 100, 115]]

/-- Token ids 5 and 300. -/
def demoInput : List Byte := [1, 2, 3, 4] ++ word 77 ++ word 64 ++ word 2 ++ word 5 ++ word 300

/-- The revert of it: "TokenIds[1]: Value is too large for uint8". -/
def demoRevert : Revert := ⟨.valueIsTooLarge [117, 105, 110, 116, 56], [.array 1, .field [84, 111, 107, 101, 110, 73, 100, 115]]⟩

theorem demo_read : readArgs demoNames demoTypes demoInput = .error demoRevert := by
  have h : (match readArgs demoNames demoTypes demoInput with
    | .ok _ => false
    | .error e => decide (e = demoRevert)) = true := by decide +kernel
  revert h
  cases readArgs demoNames demoTypes demoInput with
  | ok v => intro h; cases h
  | error e => intro h; rw [of_decide_eq_true h]

example : demoTypes.proper ∧ demoInput.length ≤ usizeMax := ⟨⟨trivial, (show (8 : Nat) ≤ 256 by decide), trivial⟩, by decide +kernel⟩

example : demoRevert.text = [84, 111, 107, 101, 110, 73, 100, 115, 91, 49, 93, 58, 32, 86, 97, 108, 117, 101, 32, 105, 115, 32, 116, 111, 111, 32, 108, 97, 114, 103, 101, 32, 102, 111, 114, 32, 117, 105, 110, 116, 56] := by decide +kernel

/-- An input too short, and one that is right. -/
example : (match readArgs demoNames demoTypes [1, 2, 3, 4, 5] with
    | .ok _ => []
    | .error e => e.text) = [69, 120, 112, 101, 99, 116, 101, 100, 32, 97, 116, 32, 108, 101, 97, 115, 116, 32, 50, 32, 97, 114, 103, 117, 109, 101, 110, 116, 115] := by decide +kernel

example : (match readArgs demoNames demoTypes ([1, 2, 3, 4] ++ word 77 ++ word 64 ++ word 2 ++ word 5 ++ word 30) with
    | .ok _ => true
    | .error _ => false) = true := by decide +kernel

theorem demo_parts : (∀ p ∈ demoRevert.path, PartOk p) ∧ ReasonOk demoRevert.reason := by
  refine ⟨fun p hp => ?_, by unfold demoRevert ReasonOk; decide⟩
  have : p = .field [84, 111, 107, 101, 110, 73, 100, 115] ∨ p = .array 1 := by
    simpa [Revert.path, demoRevert] using hp
  rcases this with rfl | rfl
  · exact ⟨_, _, rfl, by decide +kernel, by decide⟩
  · show 1 < U32
    decide

example : demoRevert.text.length ≤ u32Max := by decide +kernel

/-- The text of the test `error_formatting` of /repo/evm-precompiles/utils/src/tests.rs. -/
example : ((((((Revert.new (.custom [84, 101, 115, 116])).within (.field [102, 111, 111])).within (.array 2)).within (.array 3)).within
    (.field [98, 97, 114])).within (.field [102, 117, 122])).text = [102, 117, 122, 46, 98, 97, 114, 91, 51, 93, 91, 50, 93, 46, 102, 111, 111, 58, 32, 84, 101, 115, 116] := by decide +kernel

/-- **C253** — a fault in a component of a structure that is read as a tuple is told with the name of that field; other messages are left as
they are. -/
theorem C253_struct (e : Revert) (fields : List (List Byte)) :
    (∀ i p f, e.path = .tuple i :: p → fields[i]? = some f → (e.toField fields).path = .field f :: p ∧ (e.toField fields).reason = e.reason) ∧
    ((∀ i p, e.path = .tuple i :: p → fields[i]? = none) → e.toField fields = e) := by
  have last : ∀ i p, e.path = .tuple i :: p → e.backtrace.getLast? = some (.tuple i) := by
    intro i p h
    have h' : e.backtrace = p.reverse ++ [.tuple i] := by
      have := congrArg List.reverse h
      simpa [Revert.path] using this
    rw [h', List.getLast?_append]
    rfl
  refine ⟨fun i p f h hf => ?_, fun h => ?_⟩
  · have h' : e.backtrace = p.reverse ++ [.tuple i] := by
      have := congrArg List.reverse h
      simpa [Revert.path] using this
    unfold Revert.toField
    rw [last i p h]
    dsimp only
    rw [hf]
    refine ⟨?_, rfl⟩
    unfold Revert.path
    dsimp only
    rw [h', List.dropLast_concat, List.reverse_append, List.reverse_reverse]
    rfl
  · unfold Revert.toField
    split
    · rename_i i hl
      have hp : e.path = .tuple i :: e.backtrace.dropLast.reverse := by
        unfold Revert.path
        have := List.dropLast_append_getLast? (l := e.backtrace) (.tuple i) hl
        conv_lhs => rw [← this]
        rw [List.reverse_append]
        rfl
      rw [h i _ hp]
    · rfl

example : ((⟨.unknownSelector, [.array 3, .tuple 1]⟩ : Revert).toField [[97], [98]]).path = [.field [98], .array 3] := by decide

/-! ## The names of arguments -/

/-- **C253** — the name of an argument in a message begins with a capital letter, if its name in Rust begins with a letter. -/
theorem C253_capital (b : Byte) (r : List Byte) (h : 97 ≤ b.val ∧ b.val ≤ 122) : ∃ r', camel (b :: r) = upper b :: r' ∧ isUpper (upper b) = true := by
  refine ⟨camelFrom b r, ?_, ?_⟩
  · show (if b = 95 then [] else if (95 : Byte) = 95 then [upper b] else if isUpper 95 then [lower b] else [b]) ++ camelFrom b r = _
    rw [if_neg (by rintro rfl; revert h; decide), if_pos rfl]
    rfl
  · unfold upper isUpper
    rw [if_pos h]
    have : (Fin.ofNat 256 (b.val - 32) : Byte).val = b.val - 32 := by
      show (b.val - 32) % 256 = b.val - 32
      omega
    rw [this]
    exact decide_eq_true (by omega)

/-- **C253 is false** of the names that the documentation of `read_args!` promises ("converted to camelCase to match Solidity conventions"): the
argument `tokenIds` of a Solidity function, `token_ids` in Rust, is called `TokenIds`, and `to` would be called `To`; no argument whose name
begins with a small letter is ever called by its name. -/
theorem C253_name_refuted :
    (∃ (names : List (List Byte)) (ts : Tys) (input : List Byte) (e : Revert), ts.proper ∧ input.length ≤ usizeMax ∧
      readArgs names ts input = .error e ∧ e.path.head? = some (.field [84, 111, 107, 101, 110, 73, 100, 115]) ∧ e.path.head? ≠ some (.field [116, 111, 107, 101, 110, 73, 100, 115])) ∧
    ∀ (b : Byte) (r : List Byte), 97 ≤ b.val ∧ b.val ≤ 122 → ∀ (name : List Byte), name.head? = some b → camel (b :: r) ≠ name := by
  refine ⟨⟨demoNames, demoTypes, demoInput, demoRevert, ⟨trivial, (show (8 : Nat) ≤ 256 by decide), trivial⟩, by decide +kernel, demo_read, by decide +kernel,
    by decide +kernel⟩, fun b r h name hn e => ?_⟩
  obtain ⟨r', hc, hu⟩ := C253_capital b r h
  rw [← e, hc] at hn
  have hb : upper b = b := Option.some.inj hn
  rw [hb] at hu
  have := of_decide_eq_true hu
  omega

/-- **C253 is false** of the texts that contracts make up themselves: "ERC721: Caller not approved" (erc721/src/lib.rs:390)
is the text of a complaint about an argument named ERC721, too. -/
theorem C253_custom_refuted : ∃ e f : Revert, (∀ p ∈ e.path, PartOk p) ∧ (∀ p ∈ f.path, PartOk p) ∧ e.text = f.text ∧
    e.path = [] ∧ f.path = [.field [69, 82, 67, 55, 50, 49]] :=
  ⟨⟨.custom [69, 82, 67, 55, 50, 49, 58, 32, 67, 97, 108, 108, 101, 114, 32, 110, 111, 116, 32, 97, 112, 112, 114, 111, 118, 101, 100], []⟩, ⟨.custom [67, 97, 108, 108, 101, 114, 32, 110, 111, 116, 32, 97, 112, 112, 114, 111, 118, 101, 100], [.field [69, 82, 67, 55, 50, 49]]⟩,
    (fun p hp => absurd hp (List.not_mem_nil)), (fun p hp => by
      have : p = .field [69, 82, 67, 55, 50, 49] := by simpa [Revert.path] using hp
      subst this
      exact ⟨_, _, rfl, by decide +kernel, by decide⟩), by decide +kernel, rfl, rfl⟩

end Verif.Blame
