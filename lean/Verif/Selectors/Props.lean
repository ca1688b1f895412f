import Verif.Selectors.Spec

/-! # C265: the reader of interfaces finds the declared functions -/

namespace Verif.Selectors

def tok (p : P) : Tok → P
  | .selector n => line p (.selector n)
  | .word w => word p w

theorem line_toks : ∀ (f : List Line) (p : P), f.foldl line p = (toks f).foldl tok p
  | [], _ => rfl
  | .selector n :: l, p => by
    rw [List.foldl_cons, line_toks l]
    rfl
  | .comment :: l, p => by
    rw [List.foldl_cons, line_toks l]
    rfl
  | .code ws :: l, p => by
    rw [List.foldl_cons, line_toks l]
    simp only [toks, List.foldl_append, List.foldl_map]
    rfl

/-- The reader is between two declarations and knows the custom types. -/
structure Idle (e : List Decl) (out : List Fn) (p : P) : Prop where
  stage : p.stage = .start
  second : p.second = false
  params : p.structParams = []
  args : p.fnArgs = []
  doc : p.fnDoc = none
  out : p.out = out
  known : ∀ n, custom e n → p.types (.id n 0) = some (base e n)
  unknown : ∀ n, ¬ custom e n → p.types (.id n 0) = none
  arrays : ∀ n k, p.types (.id n (k + 1)) = none

/-- What the table of custom types knows. -/
structure Knows (e : List Decl) (t : Word → Option Text) : Prop where
  known : ∀ n, custom e n → t (.id n 0) = some (base e n)
  unknown : ∀ n, ¬ custom e n → t (.id n 0) = none
  arrays : ∀ n k, t (.id n (k + 1)) = none

theorem base_unknown : ∀ (e : List Decl) (n : Nat), ¬ custom e n → base e n = [.name n]
  | [], _, _ => rfl
  | .enum m :: e, n, h => by
    have h1 : n ≠ m := fun q => h (Or.inl q)
    have h2 : ¬ custom e n := fun q => h (Or.inr q)
    simp only [base]
    rw [if_neg h1, base_unknown e n h2]
  | .struct m fs :: e, n, h => by
    have h1 : n ≠ m := fun q => h (Or.inl q)
    have h2 : ¬ custom e n := fun q => h (Or.inr q)
    simp only [base]
    rw [if_neg h1, base_unknown e n h2]

theorem lookup_eq {e : List Decl} {t : Word → Option Text} (k : Knows e t) (n a : Nat) (h : custom e n → a ≤ 1) :
    lookup t (.id n a) = typeText e n a := by
  unfold typeText
  by_cases hc : custom e n
  · obtain rfl | rfl : a = 0 ∨ a = 1 := by have := h hc; omega
    · simp [lookup, k.known n hc]
    · simp [lookup, k.known n hc]
  · rw [base_unknown e n hc]
    cases a with
    | zero => simp [lookup, k.unknown n hc, render]
    | succ a =>
      cases a with
      | zero => simp [lookup, k.unknown n hc, render]
      | succ a => simp [lookup, k.arrays n a, render]

theorem plain_idle {e : List Decl} {out : List Fn} {p : P} (i : Idle e out p) {w : Word} (h : Plain w) : Idle e out (word p w) := by
  have : word p w = ({ p with stage := .start, second := false } : P).forget := by
    unfold word
    rw [i.stage, i.second]
    obtain ⟨h1, h2, h3⟩ := h
    cases w <;> first | rfl | exact absurd rfl h1 | exact absurd rfl h2 | exact absurd rfl h3
  rw [this]
  exact ⟨rfl, rfl, i.params, rfl, rfl, i.out, i.known, i.unknown, i.arrays⟩

theorem plains_idle {e : List Decl} {out : List Fn} : ∀ (ws : List Word) {p : P}, Idle e out p → (∀ w ∈ ws, Plain w) →
    Idle e out ((ws.map Tok.word).foldl tok p)
  | [], _, i, _ => i
  | w :: ws, _, i, h =>
    plains_idle ws (plain_idle i (h w List.mem_cons_self)) (fun x hx => h x (List.mem_cons_of_mem _ hx))

theorem knows_enum {e : List Decl} {t : Word → Option Text} (k : Knows e t) (n : Nat) :
    Knows (.enum n :: e) (upd t (.id n 0) (some [.uint8])) := by
  refine ⟨fun m h => ?_, fun m h => ?_, fun m a => ?_⟩
  · simp only [base]
    by_cases q : m = n
    · subst q
      rw [if_pos rfl, upd_same]
    · rw [if_neg q, upd_ne _ _ (by simpa using q)]
      exact k.known m (h.resolve_left q)
  · have q : m ≠ n := fun q => h (Or.inl q)
    rw [upd_ne _ _ (by simpa using q)]
    exact k.unknown m (fun q => h (Or.inr q))
  · rw [upd_ne _ _ (by simp)]
    exact k.arrays m a

theorem join_eq : ∀ l : List Text, join l = (l.intersperse [.comma]).flatten
  | [] => rfl
  | [a] => by simp [join]
  | a :: b :: l => by
    unfold join
    rw [join_eq (b :: l)]
    simp

theorem tuple_eq (l : List Text) : tuple l = written l := by
  unfold tuple written
  rw [join_eq]
  simp

theorem knows_struct {e : List Decl} {t : Word → Option Text} (k : Knows e t) (n : Nat) (fs : List Field) :
    Knows (.struct n fs :: e) (upd t (.id n 0) (some (tuple (fs.map fun f => typeText e f.ty f.arrays)))) := by
  refine ⟨fun m h => ?_, fun m h => ?_, fun m a => ?_⟩
  · simp only [base]
    by_cases q : m = n
    · subst q
      rw [if_pos rfl, upd_same, tuple_eq]
      rfl
    · rw [if_neg q, upd_ne _ _ (by simpa using q)]
      exact k.known m (h.resolve_left q)
  · have q : m ≠ n := fun q => h (Or.inl q)
    rw [upd_ne _ _ (by simpa using q)]
    exact k.unknown m (fun q => h (Or.inr q))
  · rw [upd_ne _ _ (by simp)]
    exact k.arrays m a

/-- The fields of a struct. -/
theorem fields_read {e : List Decl} : ∀ (fs : List Field) (p : P), p.stage = .params → p.second = false → Knows e p.types →
    (∀ f ∈ fs, custom e f.ty → f.arrays ≤ 1) →
    (fs.flatMap Field.words).foldl word p
      = { p with structParams := p.structParams ++ fs.map fun f => typeText e f.ty f.arrays }
  | [], p, _, _, _, _ => by simp
  | f :: fs, p, h1, h2, k, h => by
    have e1 : word (word p (.id f.ty f.arrays)) (.id f.name 0)
        = { p with structParams := p.structParams ++ [typeText e f.ty f.arrays] } := by
      have : word p (.id f.ty f.arrays) = { p with structParams := p.structParams ++ [typeText e f.ty f.arrays], second := true } := by
        rw [← lookup_eq k f.ty f.arrays (h f List.mem_cons_self)]
        simp only [word, h1, h2]
      rw [this]
      simp only [word, h1]
      rw [← h2]
    rw [List.flatMap_cons, List.foldl_append]
    show List.foldl word (word (word p (.id f.ty f.arrays)) (.id f.name 0)) _ = _
    rw [e1, fields_read fs { p with structParams := p.structParams ++ [typeText e f.ty f.arrays] } h1 h2 k (fun x hx => h x (List.mem_cons_of_mem _ hx))]
    simp

/-- The arguments of a function. -/
theorem args_read {e : List Decl} : ∀ (as : List Arg) (p : P), p.stage = .args → p.second = false → Knows e p.types →
    (∀ a ∈ as, a.name ≠ none ∧ (custom e a.ty → a.arrays ≤ 1)) →
    (as.flatMap Arg.words).foldl word p = { p with fnArgs := p.fnArgs ++ as.map fun a => typeText e a.ty a.arrays }
  | [], p, _, _, _, _ => by simp
  | a :: as, p, h1, h2, k, h => by
    obtain ⟨hn, ha⟩ := h a List.mem_cons_self
    obtain ⟨n, en⟩ := Option.ne_none_iff_exists'.1 hn
    have e0 : word p (.id a.ty a.arrays) = { p with fnArgs := p.fnArgs ++ [typeText e a.ty a.arrays], second := true } := by
      rw [← lookup_eq k a.ty a.arrays ha]
      simp only [word, h1, h2]
    have e1 : a.words.foldl word p = { p with fnArgs := p.fnArgs ++ [typeText e a.ty a.arrays] } := by
      unfold Arg.words
      rw [en]
      cases a.location
      · show word (word p (.id a.ty a.arrays)) (.id n 0) = _
        rw [e0]
        simp only [word, h1]
        rw [← h2]
      · show word (word (word p (.id a.ty a.arrays)) .location) (.id n 0) = _
        rw [e0]
        simp only [word, h1]
        rw [← h2]
    rw [List.flatMap_cons, List.foldl_append, e1,
      args_read as { p with fnArgs := p.fnArgs ++ [typeText e a.ty a.arrays] } h1 h2 k (fun x hx => h x (List.mem_cons_of_mem _ hx))]
    simp

theorem foldl_words (ws : List Word) (p : P) : (ws.map Tok.word).foldl tok p = ws.foldl word p := by
  rw [List.foldl_map]
  rfl

theorem Idle.knows {e : List Decl} {out : List Fn} {p : P} (i : Idle e out p) : Knows e p.types := ⟨i.known, i.unknown, i.arrays⟩

theorem enum_read {e : List Decl} {out : List Fn} {p : P} (i : Idle e out p) (n : Nat) (ms : List Nat) :
    Idle (.enum n :: e) out ((Item.enum n ms).toks.foldl tok p) := by
  have h : Idle (.enum n :: e) out (word (word p .enum) (.id n 0)) := by
    have k := knows_enum i.knows n
    have e1 : word (word p .enum) (.id n 0)
        = { p with
            types := upd p.types (.id n 0) (some [.uint8])
            stage := .start
            second := false } := by
      simp only [word, i.stage, i.second]
    rw [e1]
    exact ⟨rfl, rfl, i.params, i.args, i.doc, i.out, k.known, k.unknown, k.arrays⟩
  have := plains_idle (.lbrace :: ms.map (.id · 0) ++ [.rbrace]) h (by
    intro w hw
    rcases List.mem_append.1 hw with hw | hw
    · rcases List.mem_cons.1 hw with rfl | hw
      · exact ⟨by decide, by decide, by decide⟩
      · obtain ⟨m, _, rfl⟩ := List.mem_map.1 hw
        exact ⟨by simp, by simp, by simp⟩
    · rw [List.mem_singleton.1 hw]
      exact ⟨by decide, by decide, by decide⟩)
  simpa [Item.toks, tok] using this

theorem struct_read {e : List Decl} {out : List Fn} {p : P} (i : Idle e out p) (n : Nat) (fs : List Field)
    (h : ∀ f ∈ fs, custom e f.ty → f.arrays ≤ 1) : Idle (.struct n fs :: e) out ((Item.struct n fs).toks.foldl tok p) := by
  have k := knows_struct i.knows n fs
  simp only [Item.toks]
  rw [foldl_words, List.foldl_append, List.foldl_append]
  have e1 : [Word.struct, .id n 0, .lbrace].foldl word p = { p with structName := .id n 0, stage := .params, second := false } := by
    simp only [List.foldl_cons, List.foldl_nil, word, i.stage, i.second]
  rw [e1, fields_read (e := e) fs { p with structName := .id n 0, stage := .params, second := false } rfl rfl i.knows h]
  simp only [List.foldl_cons, List.foldl_nil, word, i.params, List.nil_append]
  exact ⟨rfl, rfl, rfl, i.args, i.doc, i.out, k.known, k.unknown, k.arrays⟩

theorem fn_read {e : List Decl} {out : List Fn} {p : P} (i : Idle e out p) (d : Option Nat) (n : Nat) (as : List Arg) (rest : List Word)
    (h : ∀ a ∈ as, a.name ≠ none ∧ (custom e a.ty → a.arrays ≤ 1)) (hr : ∀ w ∈ rest, Plain w) :
    Idle e (out ++ [⟨.id n 0, as.map fun a => typeText e a.ty a.arrays, d⟩]) ((Item.fn d n as [] rest).toks.foldl tok p) := by
  have key : ∀ q : P, q.stage = .start → q.second = false → q.fnArgs = [] → q.fnDoc = d → q.structParams = [] → q.out = out →
      q.types = p.types →
      Idle e (out ++ [⟨.id n 0, as.map fun a => typeText e a.ty a.arrays, d⟩])
        ((([.function, .id n 0] ++ as.flatMap Arg.words ++ [] ++ [.external] ++ rest : List Word).map Tok.word).foldl tok q) := by
    intro q q1 q2 q3 q4 q5 q6 q7
    rw [List.map_append, List.foldl_append]
    refine plains_idle rest ?_ hr
    rw [foldl_words, List.append_nil, List.foldl_append, List.foldl_append]
    have e1 : [Word.function, .id n 0].foldl word q = { q with fnName := .id n 0, stage := .args, second := false } := by
      simp only [List.foldl_cons, List.foldl_nil, word, q1, q2]
    have kq : Knows e q.types := by
      rw [q7]
      exact i.knows
    rw [e1, args_read (e := e) as { q with fnName := .id n 0, stage := .args, second := false } rfl rfl kq h]
    simp only [List.foldl_cons, List.foldl_nil, word, q3, q4, q6, List.nil_append]
    exact ⟨rfl, rfl, q5, rfl, rfl, rfl, kq.known, kq.unknown, kq.arrays⟩
  cases d with
  | none =>
    show Idle _ _ (List.foldl tok p (List.map Tok.word _))
    exact key p i.stage i.second i.args i.doc i.params i.out rfl
  | some x =>
    have e0 : tok p (.selector x) = { p with fnDoc := some x } := by
      simp only [tok, line, i.stage]
      rfl
    simp only [Item.toks]
    rw [List.foldl_append]
    show Idle _ _ (List.foldl tok (tok p (.selector x)) _)
    rw [e0]
    exact key _ i.stage i.second i.args rfl i.params i.out rfl

theorem items_read : ∀ (l : List Item) (e : List Decl) (out : List Fn) (p : P), Idle e out p → Usual e l →
    ((l.flatMap Item.toks).foldl tok p).out = out ++ declared e l
  | [], _, _, _, i, _ => by simp [declared, i.out]
  | .other ws :: l, e, out, p, i, u => by
    rw [List.flatMap_cons, List.foldl_append]
    show (List.foldl tok (List.foldl tok p (ws.map Tok.word)) _).out = _
    rw [items_read l e out _ (plains_idle ws i u.1) u.2]
    rfl
  | .enum n ms :: l, e, out, p, i, u => by
    rw [List.flatMap_cons, List.foldl_append, items_read l _ out _ (enum_read i n ms) u]
    rfl
  | .struct n fs :: l, e, out, p, i, u => by
    rw [List.flatMap_cons, List.foldl_append, items_read l _ out _ (struct_read i n fs u.1) u.2]
    rfl
  | .fn d n as attrs rest :: l, e, out, p, i, u => by
    obtain ⟨h1, h2, h3, h4⟩ := u
    subst h2
    rw [List.flatMap_cons, List.foldl_append, items_read l _ _ _ (fn_read i d n as rest h1 h3) h4]
    simp [declared]

/-- C265: of every file that holds an interface as it is usually written, however it is laid out in lines and commented, the reader finds
exactly the declared functions, in order, with the signatures Solidity gives them and the selectors written above them. -/
theorem C265_read_partial (items : List Item) (f : List Line) (u : Usual [] items) (h : toks f = items.flatMap Item.toks) :
    read f = declared [] items := by
  have i : Idle [] [] P.init := ⟨rfl, rfl, rfl, rfl, rfl, rfl, fun _ h => h.elim, fun _ _ => rfl, fun _ _ => rfl⟩
  unfold read
  rw [line_toks, h, items_read items [] [] P.init i u, List.nil_append]

/-- C265: lines and comments do not matter. -/
theorem C265_layout (f g : List Line) (h : toks f = toks g) : read f = read g := by
  unfold read
  rw [line_toks, line_toks, h]

/-- `enum 1 { 2, 3 }  struct 4 { 1 x; 5[] y }  function 6(4[] memory a, 5 b) external view returns (5)` with a selector -/
def demo : List Item :=
  [.other [.id 20 0, .id 21 0, .lbrace], .enum 1 [2, 3], .struct 4 [⟨1, 0, 10⟩, ⟨5, 1, 11⟩],
    .fn (some 77) 6 [⟨4, 1, true, some 12⟩, ⟨5, 0, false, some 13⟩] [] [.id 22 0, .id 23 0, .id 5 0], .fn none 7 [] [] [],
    .other [.rbrace]]


/-- The same on lines, with comments in between. -/
def demoFile : List Line :=
  [.code [.id 20 0, .id 21 0], .comment, .code [.lbrace], .code [.enum, .id 1 0, .lbrace, .id 2 0], .code [.id 3 0], .comment,
    .code [.rbrace, .struct, .id 4 0, .lbrace, .id 1 0, .id 10 0], .code [.id 5 1, .id 11 0, .rbrace], .comment, .selector 77,
    .code [.function, .id 6 0, .id 4 1], .code [.location, .id 12 0, .id 5 0, .id 13 0, .external, .id 22 0, .id 23 0], .comment,
    .code [.id 5 0], .code [.function, .id 7 0, .external], .code [.rbrace]]

example : Usual [] demo ∧ toks demoFile = demo.flatMap Item.toks
    ∧ (read demoFile).map Fn.signature
      = [[.name 6, .lpar, .lpar, .uint8, .comma, .name 5, .brackets, .rpar, .brackets, .comma, .name 5, .rpar], [.name 7, .lpar, .rpar]]
    ∧ (read demoFile).map Fn.doc = [some 77, none] := by
  refine ⟨?_, by decide +kernel, by decide +kernel, by decide +kernel⟩
  simp [Usual, demo, Plain]

/-- C265 fails: Solidity lets the names of arguments be left out, but then the reader takes `external` for the name and runs on. -/
theorem C265_unnamed_refuted :
    ¬ ∀ (items : List Item) (f : List Line), toks f = items.flatMap Item.toks →
        (∀ i ∈ items, match i with
          | .fn _ _ as attrs rest => attrs = [] ∧ rest = [] ∧ ∀ a ∈ as, a.arrays = 0 ∧ a.location = false
          | _ => False) → read f = declared [] items := by
  intro h
  have := h [.fn none 6 [⟨5, 0, false, none⟩] [] [], .fn none 7 [] [] []]
    [.code [.function, .id 6 0, .id 5 0, .external], .code [.function, .id 7 0, .external]] (by decide +kernel) (by simp)
  exact absurd this (by decide +kernel)

/-- What it reads instead: one function with `function` as second argument. -/
example : (read [.code [.function, .id 6 0, .id 5 0, .external], .code [.function, .id 7 0, .external]]).map Fn.signature
    = [[.name 6, .lpar, .name 5, .comma, .kw .function, .rpar]] := by decide +kernel

/-- C265 fails: `view external` is as good as `external view`, but `view` is taken for an argument. -/
theorem C265_attribute_refuted :
    ¬ ∀ (items : List Item) (f : List Line), toks f = items.flatMap Item.toks →
        (∀ i ∈ items, match i with
          | .fn _ _ as attrs _ => as = [] ∧ ∀ w ∈ attrs, Plain w
          | _ => False) → read f = declared [] items := by
  intro h
  have := h [.fn none 6 [] [.id 22 0] []] [.code [.function, .id 6 0, .id 22 0, .external]] (by decide +kernel) (by simp [Plain])
  exact absurd this (by decide +kernel)

/-- C265 fails: an array of arrays of a custom type keeps its name in the signature. -/
theorem C265_nested_refuted :
    ¬ ∀ (items : List Item) (f : List Line), toks f = items.flatMap Item.toks →
        (∀ i ∈ items, match i with
          | .fn _ _ as attrs rest => attrs = [] ∧ rest = [] ∧ ∀ a ∈ as, a.name ≠ none
          | .enum _ _ => True
          | _ => False) → read f = declared [] items := by
  intro h
  have := h [.enum 1 [], .fn none 6 [⟨1, 2, false, some 12⟩] [] []]
    [.code [.enum, .id 1 0, .lbrace, .rbrace, .function, .id 6 0, .id 1 2, .id 12 0, .external]] (by decide +kernel) (by simp)
  exact absurd this (by decide +kernel)

/-- C265 fails: the order of declarations does not matter in Solidity, but a type that is declared after the function keeps its name in
the signature. -/
theorem C265_order_refuted :
    ¬ ∀ (a b : Item) (f g : List Line), Usual [] [a, b] → toks f = a.toks ++ b.toks → toks g = b.toks ++ a.toks → read f = read g := by
  intro h
  have := h (.enum 1 []) (.fn none 6 [⟨1, 0, false, some 12⟩] [] [])
    [.code [.enum, .id 1 0, .lbrace, .rbrace, .function, .id 6 0, .id 1 0, .id 12 0, .external]]
    [.code [.function, .id 6 0, .id 1 0, .id 12 0, .external, .enum, .id 1 0, .lbrace, .rbrace]] (by simp [Usual]) (by decide +kernel)
    (by decide +kernel)
  exact absurd this (by decide +kernel)

/-- C265 fails: a comment that is not at the beginning of a line, as in `function 6(5 a, // the b`, is read as code. -/
theorem C265_comment_refuted :
    ¬ ∀ (pre comment post : List Word), read [.code (pre ++ comment), .code post] = read [.code pre, .comment, .code post] := by
  intro h
  have := h [.function, .id 6 0, .id 5 0, .id 12 0] [.id 30 0, .id 31 0] [.id 5 0, .id 13 0, .external]
  exact absurd this (by decide +kernel)

end Verif.Selectors
