import Verif.Lemmas.Expressions
import Verif.Lemmas.AxisIndex
import Mathlib.Algebra.Order.Field.Basic
import Mathlib.Algebra.BigOperators.Fin
import Mathlib.Data.Rat.Defs
import Mathlib.Algebra.Order.Ring.Rat
import Mathlib.Algebra.Field.Rat
import Mathlib.Tactic.Linarith
import Mathlib.Tactic.Ring
import Mathlib.Tactic.NormNum

/-!
# C45, C46, C84, C85, C86: expressions of the constrained model
-/

namespace Esat

/-! ## C45: the documented form -/

/-- The characters with a meaning in expressions. -/
def special : List Char := ['(', ')', '[', ']', ':', '|', '*', '=', ',']

/-- A non-empty text without such characters. -/
def Clean (s : List Char) : Prop := s ≠ [] ∧ ∀ c ∈ s, c ∉ special

/-- One term: the texts written in it. -/
structure ETerm where
  /-- coefficient -/
  coef : List Char
  /-- number of the factor -/
  factor : List Char
  /-- `feature` or `sample` -/
  kind : List Char
  /-- number of the feature or sample -/
  elem : List Char

/-- The texts contain no character with a meaning in expressions. -/
def ETerm.Ok (t : ETerm) : Prop := Clean t.coef ∧ Clean t.factor ∧ Clean t.kind ∧ Clean t.elem

/-- `factor:I|feature:J`. -/
def ETerm.label (t : ETerm) : List Char := "factor".toList ++ ':' :: (t.factor ++ '|' :: (t.kind ++ ':' :: t.elem))

/-- `COEF*[factor:I|feature:J]`. -/
def ETerm.body (t : ETerm) : List Char := t.coef ++ '*' :: '[' :: t.label ++ [']']

/-- `(COEF*[factor:I|feature:J])`. -/
def ETerm.text (t : ETerm) : List Char := '(' :: t.body ++ [')']

/-- An expression: a first term, further terms with their operators (`true` = minus), right hand side, dQ. -/
structure Expr where
  /-- first term -/
  first : ETerm
  /-- further terms -/
  rest : List (Bool × ETerm)
  /-- right hand side, e.g. `0` -/
  rhs : List Char
  /-- the limit -/
  dQ : List Char

/-- `+` or `-`. -/
def opChar (neg : Bool) : Char := if neg then '-' else '+'

/-- Left hand side. -/
def Expr.lhs (e : Expr) : List Char := e.first.text ++ e.rest.flatMap fun p => opChar p.1 :: p.2.text

/-- The text, e.g. `(0.66*[factor:1|feature:2])-(4.2*[factor:2|feature:4])=0,250`. -/
def Expr.text (e : Expr) : List Char := e.lhs ++ '=' :: (e.rhs ++ ',' :: e.dQ)

/-- The terms with their signs. -/
def Expr.terms (e : Expr) : List (Bool × ETerm) := (false, e.first) :: e.rest

/-- All texts are clean. -/
def Expr.Ok (e : Expr) : Prop := (∀ p ∈ e.terms, p.2.Ok) ∧ Clean e.rhs ∧ Clean e.dQ

section parse
variable {K : Type*} [Field K] (pint : List Char → Option ℤ) (pfloat : List Char → Option K)

/-- The reader of numbers, restricted to the texts of a term: index and coefficient. -/
def ETerm.Reads (t : ETerm) (ix : ℤ × ℤ) (c : K) : Prop :=
  pint t.factor = some ix.1 ∧ pint t.elem = some ix.2 ∧ pfloat t.coef = some c

theorem Clean.free {s : List Char} (h : Clean s) (p : Char → Bool) (hp : ∀ c, p c = true → c ∈ special) : ∀ x ∈ s, p x = false := by
  intro x hx
  by_contra hc
  exact h.2 x hx (hp x (by simpa using hc))

theorem Clean.notMem {s : List Char} (h : Clean s) (c : Char) (hc : c ∈ special) : c ∉ s := fun hm => h.2 c hm hc

theorem ETerm.label_split (t : ETerm) (h : t.Ok) :
    splitRuns (fun c => c = ':' ∨ c = '|') t.label = ["factor".toList, t.factor, t.kind, t.elem] := by
  obtain ⟨_, h1, h2, h3⟩ := h
  have hp : ∀ c : Char, decide (c = ':' ∨ c = '|') = true → c ∈ special := by
    intro c hc
    rcases of_decide_eq_true hc with rfl | rfl <;> decide
  obtain ⟨f0, f, hf⟩ := List.exists_cons_of_ne_nil h1.1
  obtain ⟨k0, k, hk⟩ := List.exists_cons_of_ne_nil h2.1
  obtain ⟨e0, e, he⟩ := List.exists_cons_of_ne_nil h3.1
  have e1 := h1.free _ hp
  have e2 := h2.free _ hp
  have e3 := h3.free _ hp
  unfold ETerm.label
  rw [hf] at e1 ⊢
  rw [hk] at e2 ⊢
  rw [he] at e3 ⊢
  rw [List.cons_append, splitRuns_append _ "factor".toList ':' f0 _ (by decide) (by decide) (e1 f0 List.mem_cons_self),
    ← List.cons_append, List.cons_append (a := k0),
    splitRuns_append _ (f0 :: f) '|' k0 _ e1 (by decide) (e2 k0 List.mem_cons_self), ← List.cons_append,
    splitRuns_append _ (k0 :: k) ':' e0 _ e2 (by decide) (e3 e0 List.mem_cons_self), splitRuns_free _ _ e3]

theorem ETerm.label_notMem (t : ETerm) (h : t.Ok) (c : Char) (hc : c ∈ special) (h1 : c ≠ ':') (h2 : c ≠ '|') : c ∉ t.label := by
  unfold ETerm.label
  have : c ∉ "factor".toList := by
    revert c
    decide
  simp only [List.mem_append, List.mem_cons, not_or]
  exact ⟨this, h1, h.2.1.notMem c hc, h2, h.2.2.1.notMem c hc, h1, h.2.2.2.notMem c hc⟩

theorem ETerm.read (t : ETerm) (h : t.Ok) (ix : ℤ × ℤ) (c : K) (hr : t.Reads pint pfloat ix c) :
    readTerm pint pfloat t.body = some (t.label, ix, t.kind, c) := by
  have hb : firstBracket t.body = some t.label := by
    have := firstBracket_spec (t.coef ++ ['*']) t.label (by simp [h.1.notMem '[' (by decide)])
      (t.label_notMem h ']' (by decide) (by decide) (by decide))
    simpa [ETerm.body] using this
  have hs : splitChar '*' t.body = t.coef :: splitChar '*' ('[' :: t.label ++ [']']) := by
    have := splitChar_append '*' t.coef ('[' :: t.label ++ [']']) (h.1.notMem '*' (by decide))
    simpa [ETerm.body] using this
  unfold readTerm
  rw [hb, Option.bind_some]
  simp only [t.label_split h, hs, List.getElem?_cons_succ, List.getElem?_cons_zero, Option.bind_some, hr.1, hr.2.1, hr.2.2,
    List.head?_cons, Option.map_some]

theorem ETerm.body_length (t : ETerm) : 1 < t.body.length := by
  simp [ETerm.body]
  omega

theorem ETerm.body_ne (t : ETerm) : t.body ≠ ['-'] := by
  intro h
  have := t.body_length
  rw [h] at this
  simp at this

theorem ETerm.body_free (t : ETerm) (h : t.Ok) : ∀ x ∈ t.body, decide (x = '(' ∨ x = ')') = false := by
  intro x hx
  rw [decide_eq_false_iff_not]
  unfold ETerm.body at hx
  simp only [List.mem_append, List.mem_cons, List.not_mem_nil, or_false] at hx
  rintro (rfl | rfl)
  · rcases hx with (hx | hx | hx | hx) | hx
    · exact h.1.notMem _ (by decide) hx
    · exact absurd hx (by decide)
    · exact absurd hx (by decide)
    · exact t.label_notMem h _ (by decide) (by decide) (by decide) hx
    · exact absurd hx (by decide)
  · rcases hx with (hx | hx | hx | hx) | hx
    · exact h.1.notMem _ (by decide) hx
    · exact absurd hx (by decide)
    · exact absurd hx (by decide)
    · exact t.label_notMem h _ (by decide) (by decide) (by decide) hx
    · exact absurd hx (by decide)

theorem ETerm.body_cons (t : ETerm) (h : t.Ok) : ∃ x l, t.body = x :: l ∧ decide (x = '(' ∨ x = ')') = false := by
  obtain ⟨x, l, hx⟩ := List.exists_cons_of_ne_nil (show t.body ≠ [] from by intro h; have := t.body_length; rw [h] at this; simp at this)
  exact ⟨x, l, hx, t.body_free h x (by rw [hx]; exact List.mem_cons_self)⟩

/-- The pieces the parser sees. -/
theorem lhs_split (rest : List (Bool × ETerm)) (hr : ∀ p ∈ rest, p.2.Ok) : ∀ (t : ETerm) (_ : t.Ok),
    splitRuns (fun c => c = '(' ∨ c = ')') (t.body ++ ')' :: rest.flatMap fun p => opChar p.1 :: p.2.text) =
      t.body :: (rest.flatMap fun p => [[opChar p.1], p.2.body]) ++ [[]] := by
  induction rest with
  | nil =>
    intro t ht
    exact splitRuns_end _ t.body ')' (t.body_free ht) (by decide)
  | cons p rest ih =>
    intro t ht
    have hp := hr p List.mem_cons_self
    have hop : decide (opChar p.1 = '(' ∨ opChar p.1 = ')') = false := by
      cases p.1 <;> decide
    obtain ⟨x, l, hx, hxp⟩ := p.2.body_cons hp
    have e : t.body ++ ')' :: (p :: rest).flatMap (fun p => opChar p.1 :: p.2.text) =
        t.body ++ ')' :: opChar p.1 :: ('(' :: (p.2.body ++ ')' :: rest.flatMap fun p => opChar p.1 :: p.2.text)) := by
      simp [ETerm.text]
    have e2 := splitRuns_append (fun c => decide (c = '(' ∨ c = ')')) [opChar p.1] '(' x
      (l ++ ')' :: rest.flatMap fun p => opChar p.1 :: p.2.text) (by simpa using hop) (by decide) hxp
    rw [← List.cons_append, ← hx] at e2
    rw [e, splitRuns_append _ t.body ')' (opChar p.1) _ (t.body_free ht) (by decide) hop]
    rw [show opChar p.1 :: '(' :: (p.2.body ++ ')' :: rest.flatMap fun p => opChar p.1 :: p.2.text) =
      [opChar p.1] ++ '(' :: (p.2.body ++ ')' :: rest.flatMap fun p => opChar p.1 :: p.2.text) from rfl, e2,
      ih (fun q hq => hr q (List.mem_cons_of_mem _ hq)) p.2 hp]
    simp

theorem Expr.pieces (e : Expr) (h : e.Ok) :
    inner (splitRuns (fun c => c = '(' ∨ c = ')') e.lhs) = e.first.body :: e.rest.flatMap fun p => [[opChar p.1], p.2.body] := by
  have h1 : e.first.Ok := h.1 (false, e.first) (by simp [Expr.terms])
  have h2 : ∀ p ∈ e.rest, p.2.Ok := fun p hp => h.1 p (by simp [Expr.terms, hp])
  obtain ⟨x, l, hx, hxp⟩ := e.first.body_cons h1
  have e1 : e.lhs = '(' :: (e.first.body ++ ')' :: e.rest.flatMap fun p => opChar p.1 :: p.2.text) := by
    simp [Expr.lhs, ETerm.text]
  have e2 := splitRuns_sep (fun c => decide (c = '(' ∨ c = ')')) '(' x
    (l ++ ')' :: e.rest.flatMap fun p => opChar p.1 :: p.2.text) (by decide) hxp
  rw [← List.cons_append, ← hx] at e2
  rw [e1, e2, lhs_split e.rest h2 e.first h1]
  simp only [inner, List.tail_cons, List.dropLast_concat]

/-- What is to be entered for a term: the label, the numbers, the coefficient with its sign, the number of the expression. -/
def occOf (ix : ETerm → ℤ × ℤ) (cf : ETerm → K) (ei : ℕ) (p : Bool × ETerm) : Occ K :=
  ⟨p.2.label, ix p.2, p.2.kind, if p.1 then -cf p.2 else cf p.2, ei⟩

theorem parse_rest (ix : ETerm → ℤ × ℤ) (cf : ETerm → K) (ei : ℕ) (rest : List (Bool × ETerm)) (hr : ∀ p ∈ rest, p.2.Ok)
    (hread : ∀ p ∈ rest, p.2.Reads pint pfloat (ix p.2) (cf p.2)) : ∀ st labels,
    parsePieces pint pfloat ei (rest.flatMap fun p => [[opChar p.1], p.2.body]) false st labels =
      some ((rest.map (occOf ix cf ei)).foldl enterOcc st, labels ++ rest.map (·.2.label)) := by
  induction rest with
  | nil => intro st labels; simp [parsePieces]
  | cons p rest ih =>
    intro st labels
    have hp := hr p List.mem_cons_self
    have hrd := p.2.read pint pfloat hp _ _ (hread p List.mem_cons_self)
    simp only [List.flatMap_cons, List.cons_append, List.nil_append]
    rw [parsePieces, if_neg (by simp), parsePieces, if_pos p.2.body_length, hrd, Option.bind_some]
    simp only
    have hn : decide (p.2.body = ['-']) = false := decide_eq_false p.2.body_ne
    have hs : (cf p.2 * if decide ([opChar p.1] = ['-']) = true then -1 else 1) = if p.1 then -cf p.2 else cf p.2 := by
      cases p.1 <;> simp [opChar]
    rw [hn, hs, ih (fun q hq => hr q (List.mem_cons_of_mem _ hq)) fun q hq => hread q (List.mem_cons_of_mem _ hq)]
    simp [enterOcc, occOf]

theorem Expr.parse (ix : ETerm → ℤ × ℤ) (cf : ETerm → K) (ei : ℕ) (e : Expr) (h : e.Ok) (dQ : K) (hd : pfloat e.dQ = some dQ)
    (hread : ∀ p ∈ e.terms, p.2.Reads pint pfloat (ix p.2) (cf p.2)) (st : ExprState K) :
    parseExpression pint pfloat ei e.text st =
      some ((e.terms.map (occOf ix cf ei)).foldl enterOcc st, e.terms.map (·.2.label), dQ) := by
  have h1 : e.first.Ok := h.1 (false, e.first) (by simp [Expr.terms])
  have h2 : ∀ p ∈ e.rest, p.2.Ok := fun p hp => h.1 p (by simp [Expr.terms, hp])
  have hl : '=' ∉ e.lhs := by
    have ht : ∀ t : ETerm, t.Ok → '=' ∉ t.text := by
      intro t ht
      simp only [ETerm.text, ETerm.body, List.mem_append, List.mem_cons, List.not_mem_nil, or_false, not_or]
      exact ⟨⟨by decide, ⟨ht.1.notMem _ (by decide), by decide, by decide, t.label_notMem ht _ (by decide) (by decide) (by decide)⟩,
        by decide⟩, by decide⟩
    unfold Expr.lhs
    simp only [List.mem_append, List.mem_flatMap, List.mem_cons, not_or, not_exists, not_and]
    exact ⟨ht _ h1, fun p hp => ⟨by cases p.1 <;> decide, ht _ (h2 p hp)⟩⟩
  have hs : splitChar '=' e.text = [e.lhs, e.rhs ++ ',' :: e.dQ] := by
    unfold Expr.text
    rw [splitChar_append _ _ _ hl, splitChar_free]
    simp only [List.mem_append, List.mem_cons, not_or]
    exact ⟨h.2.1.notMem _ (by decide), by decide, h.2.2.notMem _ (by decide)⟩
  have hc : splitChar ',' (e.rhs ++ ',' :: e.dQ) = [e.rhs, e.dQ] := by
    rw [splitChar_append _ _ _ (h.2.1.notMem _ (by decide)), splitChar_free _ _ (h.2.2.notMem _ (by decide))]
  unfold parseExpression
  simp only [hs, hc, List.getElem?_cons_succ, List.getElem?_cons_zero, Option.bind_some, hd, e.pieces h]
  have hrd := e.first.read pint pfloat h1 _ _ (hread (false, e.first) (by simp [Expr.terms]))
  rw [parsePieces, if_pos e.first.body_length, hrd, Option.bind_some]
  simp only
  rw [decide_eq_false e.first.body_ne, parse_rest pint pfloat ix cf ei e.rest h2 fun p hp => hread p (by simp [Expr.terms, hp])]
  simp [Expr.terms, enterOcc, occOf]

/-- All terms of a list of expressions with their signs and the number of their expression, in reading order. -/
def occurrences (ix : ETerm → ℤ × ℤ) (cf : ETerm → K) : List Expr → ℕ → List (Occ K)
  | [], _ => []
  | e :: es, ei => e.terms.map (occOf ix cf ei) ++ occurrences ix cf es (ei + 1)

theorem mapExpressions_render (ix : ETerm → ℤ × ℤ) (cf : ETerm → K) (dq : Expr → K) (es : List Expr) (h : ∀ e ∈ es, e.Ok)
    (hd : ∀ e ∈ es, pfloat e.dQ = some (dq e)) (hread : ∀ e ∈ es, ∀ p ∈ e.terms, p.2.Reads pint pfloat (ix p.2) (cf p.2)) :
    ∀ ei st labeled, mapExpressions pint pfloat (es.map Expr.text) ei st labeled =
      some (labeled ++ es.map fun e => (e.terms.map (·.2.label), dq e), ((occurrences ix cf es ei).foldl enterOcc st).mapping) := by
  induction es with
  | nil => intro ei st labeled; simp [mapExpressions, occurrences]
  | cons e es ih =>
    intro ei st labeled
    rw [List.map_cons, mapExpressions, e.parse pint pfloat ix cf ei (h e List.mem_cons_self) (dq e) (hd e List.mem_cons_self)
      (hread e List.mem_cons_self), Option.bind_some]
    simp only
    rw [ih (fun e he => h e (List.mem_cons_of_mem _ he)) (fun e he => hd e (List.mem_cons_of_mem _ he))
      fun e he => hread e (List.mem_cons_of_mem _ he)]
    simp [occurrences]

/-- For any list of expressions in the documented form and any reader of numbers, the parser returns, per expression, the
labels of its terms in order and its dQ limit; and a dictionary with exactly the labels that occur. The entry of a label holds
the signed coefficients of all its occurrences in reading order with the numbers of their expressions, the index and the type
of the factor element, and its column: the position among the distinct labels in order of first appearance. -/
theorem C45_parse (ix : ETerm → ℤ × ℤ) (cf : ETerm → K) (dq : Expr → K) (es : List Expr) (h : ∀ e ∈ es, e.Ok)
    (hd : ∀ e ∈ es, pfloat e.dQ = some (dq e)) (hread : ∀ e ∈ es, ∀ p ∈ e.terms, p.2.Reads pint pfloat (ix p.2) (cf p.2)) :
    ∃ mapping, mapExpressions pint pfloat (es.map Expr.text) 0 ⟨[], 0⟩ [] =
        some (es.map fun e => (e.terms.map (·.2.label), dq e), mapping) ∧
      ∀ l, dictGet mapping l = ((occurrences ix cf es 0).find? fun o => o.label = l).map fun o =>
        ⟨((occurrences ix cf es 0).filter fun o => o.label = l).map (·.coef),
          ((occurrences ix cf es 0).filter fun o => o.label = l).map (·.expr), o.index, o.kind,
          (appear ((occurrences ix cf es 0).map (·.label))).idxOf l⟩ := by
  refine ⟨((occurrences ix cf es 0).foldl enterOcc ⟨[], 0⟩).mapping, ?_, (foldl_enterOcc _).2⟩
  rw [mapExpressions_render pint pfloat ix cf dq es h hd hread]
  simp

/-- A label determines the factor element: different texts give different labels. -/
theorem C45_label_injective (t t' : ETerm) (h : t.Ok) (h' : t'.Ok) (he : t.label = t'.label) :
    t.factor = t'.factor ∧ t.kind = t'.kind ∧ t.elem = t'.elem := by
  have := t.label_split h
  rw [he, t'.label_split h'] at this
  simp only [List.cons.injEq, and_true, true_and] at this
  exact ⟨this.1.symm, this.2.1.symm, this.2.2.symm⟩

/-! ## C84 -/

/-- The coefficient the solver uses for a label in expression `i` is the signed coefficient of the first occurrence of the
label in that expression. What is missing: further occurrences in the same expression (`C84_duplicate_refuted`) and a leading
minus sign (`C84_leading_minus_refuted`). -/
theorem C84_coefficient_partial (occ : List (Occ K)) (l : List Char) (i : ℕ) (en : ExprEntry K)
    (h : dictGet (occ.foldl enterOcc ⟨[], 0⟩).mapping l = some en) :
    coefUsed en i = (occ.find? fun o => o.label = l ∧ o.expr = i).map (·.coef) := by
  rw [(foldl_enterOcc occ).2, Option.map_eq_some_iff] at h
  obtain ⟨o, _, rfl⟩ := h
  unfold coefUsed
  simp only
  rw [getElem?_idxOf_map, List.find?_filter]
  simp

/-- The coefficient used is the total coefficient of the element in the expression exactly if the occurrences after the first one cancel; in particular if there is only one. -/
theorem C84_total_iff_partial (occ : List (Occ K)) (l : List Char) (i : ℕ) (en : ExprEntry K)
    (h : dictGet (occ.foldl enterOcc ⟨[], 0⟩).mapping l = some en) (o : Occ K) (os : List (Occ K))
    (hf : (occ.filter fun o => o.label = l ∧ o.expr = i) = o :: os) :
    coefUsed en i = some o.coef ∧ (coefUsed en i = some (((occ.filter fun o => o.label = l ∧ o.expr = i).map (·.coef)).sum) ↔ (os.map (·.coef)).sum = 0) := by
  have hc : coefUsed en i = some o.coef := by
    rw [C84_coefficient_partial occ l i en h, ← List.head?_filter, hf]
    rfl
  refine ⟨hc, ?_⟩
  rw [hc, hf, Option.some.injEq, List.map_cons, List.sum_cons]
  constructor
  · intro e
    simpa using e
  · intro e
    rw [e, add_zero]

/-- **Disagreement.** When an expression contains the same element twice, the second coefficient is ignored, although the
expression evaluates to the sum of both. -/
theorem C84_duplicate_refuted (label kind : List Char) (index : ℤ × ℤ) (c c' : K) (hc : c' ≠ 0) :
    ∃ en, dictGet (([⟨label, index, kind, c, 0⟩, ⟨label, index, kind, c', 0⟩] : List (Occ K)).foldl enterOcc ⟨[], 0⟩).mapping label =
      some en ∧ coefUsed en 0 = some c ∧ c ≠ c + c' := by
  obtain ⟨en, hen⟩ : ∃ en, dictGet (([⟨label, index, kind, c, 0⟩, ⟨label, index, kind, c', 0⟩] : List (Occ K)).foldl enterOcc
      ⟨[], 0⟩).mapping label = some en := by
    rw [(foldl_enterOcc _).2]
    simp
  refine ⟨en, hen, ?_, by simpa using hc⟩
  rw [C84_coefficient_partial _ _ _ _ hen]
  simp

/-- **Disagreement.** A minus sign in front of the first term is dropped: the parse is the same as without it. -/
theorem C84_leading_minus_refuted (ei : ℕ) (e : Expr) (h : e.Ok) (st : ExprState K) :
    parseExpression pint pfloat ei ('-' :: e.text) st = parseExpression pint pfloat ei e.text st := by
  have h1 : e.first.Ok := h.1 (false, e.first) (by simp [Expr.terms])
  obtain ⟨x, l, hx, hxp⟩ := e.first.body_cons h1
  have e1 : e.lhs = '(' :: x :: (l ++ ')' :: e.rest.flatMap fun p => opChar p.1 :: p.2.text) := by
    rw [← List.cons_append, ← List.cons_append]
    simp [Expr.lhs, ETerm.text, hx]
  have hsplit : splitRuns (fun c => decide (c = '(' ∨ c = ')')) ('-' :: e.lhs) =
      ['-'] :: (splitRuns (fun c => decide (c = '(' ∨ c = ')')) e.lhs).tail := by
    rw [e1]
    have := splitRuns_append (fun c => decide (c = '(' ∨ c = ')')) ['-'] '(' x
      (l ++ ')' :: e.rest.flatMap fun p => opChar p.1 :: p.2.text) (by decide) (by decide) hxp
    rw [List.singleton_append] at this
    rw [this, splitRuns_sep _ '(' x _ (by decide) hxp]
    rfl
  have hne : splitRuns (fun c => decide (c = '(' ∨ c = ')')) e.lhs ≠ [] := by
    rw [e1, splitRuns_sep _ '(' x _ (by decide) hxp]
    simp
  have hl : '=' ∉ e.lhs := by
    have h2 : ∀ p ∈ e.rest, p.2.Ok := fun p hp => h.1 p (by simp [Expr.terms, hp])
    have ht : ∀ t : ETerm, t.Ok → '=' ∉ t.text := by
      intro t ht
      simp only [ETerm.text, ETerm.body, List.mem_append, List.mem_cons, List.not_mem_nil, or_false, not_or]
      exact ⟨⟨by decide, ⟨ht.1.notMem _ (by decide), by decide, by decide, t.label_notMem ht _ (by decide) (by decide) (by decide)⟩,
        by decide⟩, by decide⟩
    unfold Expr.lhs
    simp only [List.mem_append, List.mem_flatMap, List.mem_cons, not_or, not_exists, not_and]
    exact ⟨ht _ h1, fun p hp => ⟨by cases p.1 <;> decide, ht _ (h2 p hp)⟩⟩
  have hl' : '=' ∉ '-' :: e.lhs := by
    rw [List.mem_cons, not_or]
    exact ⟨by decide, hl⟩
  unfold parseExpression Expr.text
  rw [splitChar_append _ _ _ hl, ← List.cons_append, splitChar_append _ _ _ hl']
  simp only [List.getElem?_cons_succ, List.getElem?_cons_zero, Option.bind_some]
  rw [hsplit]
  simp only [inner, List.tail_cons]

end parse

/-- A concrete reader: one digit. -/
def digit (s : List Char) : Option ℤ :=
  match s with
  | [c] => if c.isDigit then some (c.toNat - 48 : ℤ) else none
  | _ => none

/-- Non-trivial case: two expressions, three elements, one of them in both expressions. -/
example : mapExpressions (K := ℚ) digit (fun s => (digit s).map fun (z : ℤ) => (z : ℚ))
    ["(6*[factor:1|feature:2])-(4*[factor:2|feature:4])=0,9".toList,
     "(3*[factor:2|feature:4])-(2*[factor:0|sample:5])=0,8".toList] 0 ⟨[], 0⟩ [] =
    some ([(["factor:1|feature:2".toList, "factor:2|feature:4".toList], 9),
           (["factor:2|feature:4".toList, "factor:0|sample:5".toList], 8)],
      [("factor:1|feature:2".toList, ⟨[6], [0], (1, 2), "feature".toList, 0⟩),
       ("factor:2|feature:4".toList, ⟨[-4, 3], [0, 1], (2, 4), "feature".toList, 1⟩),
       ("factor:0|sample:5".toList, ⟨[-2], [1], (0, 5), "sample".toList, 2⟩)]) := by
  decide +kernel

example : (⟨⟨"6".toList, "1".toList, "feature".toList, "2".toList⟩, [(true, ⟨"4".toList, "2".toList, "feature".toList, "4".toList⟩)],
    "0".toList, "9".toList⟩ : Expr).text = "(6*[factor:1|feature:2])-(4*[factor:2|feature:4])=0,9".toList ∧
    (⟨⟨"6".toList, "1".toList, "feature".toList, "2".toList⟩, [(true, ⟨"4".toList, "2".toList, "feature".toList, "4".toList⟩)],
    "0".toList, "9".toList⟩ : Expr).Ok := by
  refine ⟨by decide, ?_⟩
  simp only [Expr.Ok, Expr.terms, ETerm.Ok, Clean]
  decide

/-! ## C46 -/

section budget
variable {K : Type*} [Field K] [LinearOrder K] [IsStrictOrderedRing K] {m n k : ℕ}

theorem scaleLoop_spec (dQ : K → K) (total c : K) : ∀ (r : ℕ) (s : K),
    scaleLoop dQ total c r s = 0 ∨ ∃ j < r, scaleLoop dQ total c r s = s * c ^ j ∧ dQ (s * c ^ j) < total ∧
      ∀ j' < j, total ≤ dQ (s * c ^ j') := by
  intro r
  induction r with
  | zero => intro s; exact .inl rfl
  | succ r ih =>
    intro s
    unfold scaleLoop
    by_cases h : dQ s < total
    · rw [if_pos h]
      exact .inr ⟨0, by omega, by simp, by simpa using h, by omega⟩
    · rw [if_neg h]
      rcases ih (s * c) with h0 | ⟨j, hj, h1, h2, h3⟩
      · exact .inl h0
      · refine .inr ⟨j + 1, by omega, ?_, ?_, ?_⟩
        · rw [h1, pow_succ']
          ring
        · rw [pow_succ', ← mul_assoc]
          exact h2
        · intro j' hj'
          rcases Nat.eq_zero_or_pos j' with rfl | hpos
          · simpa using not_lt.1 h
          · obtain ⟨j'', rfl⟩ : ∃ j'', j' = j'' + 1 := ⟨j' - 1, by omega⟩
            rw [pow_succ', ← mul_assoc]
            exact h3 j'' (by omega)

/-- The applied pull is the requested one multiplied by `0.98^j` for the smallest `j ≤ 100` for which the change of
Q(true)+Q(aux) is below the summed limits, or it is no pull at all; so it is always the requested pull scaled by a factor in
`[0, 1]`. -/
theorem C46_budget (V U : Mat m n K) (W0 : Mat m k K) (H0 : Mat k n K) (soft baseQ total : K) (W : Mat m k K) (H : Mat k n K)
    (Dw : Mat m k K) (Dh : Mat k n K) :
    let P := exprPull V U W0 H0 soft baseQ total W H Dw Dh
    (P = (fun _ _ => 0, fun _ _ => 0) ∨
      qLoss V U (fun i a => W i a + P.1 i a) (fun a j => H a j + P.2 a j) +
        qAux soft W0 (fun i a => W i a + P.1 i a) P.1 H0 (fun a j => H a j + P.2 a j) P.2 - baseQ < total) ∧
    ∃ s, 0 ≤ s ∧ s ≤ 1 ∧ P = (fun i a => s * Dw i a, fun a j => s * Dh a j) := by
  intro P
  have hs := scaleLoop_spec (fun s => exprDQ V U W0 H0 soft baseQ W H (scaled s Dw) (scaled s Dh)) total (98 / 100 : K) 101 1
  have hP : P = (scaled (scaleLoop (fun s => exprDQ V U W0 H0 soft baseQ W H (scaled s Dw) (scaled s Dh)) total (98 / 100 : K) 101 1) Dw,
    scaled (scaleLoop (fun s => exprDQ V U W0 H0 soft baseQ W H (scaled s Dw) (scaled s Dh)) total (98 / 100 : K) 101 1) Dh) := rfl
  rcases hs with h0 | ⟨j, _, h1, h2, _⟩
  · rw [h0] at hP
    refine ⟨.inl ?_, 0, le_rfl, zero_le_one, hP⟩
    rw [hP]
    simp only [Prod.mk.injEq]
    exact ⟨by funext i a; simp [scaled], by funext a j; simp [scaled]⟩
  · rw [h1] at hP
    refine ⟨.inr ?_, 1 * (98 / 100) ^ j, by positivity, ?_, hP⟩
    · rw [hP]
      exact h2
    · rw [one_mul]
      exact pow_le_one₀ (by norm_num) (by norm_num)

/-- When the requested pull respects the limits it is applied unchanged. -/
theorem C46_unscaled (V U : Mat m n K) (W0 : Mat m k K) (H0 : Mat k n K) (soft baseQ total : K) (W : Mat m k K) (H : Mat k n K)
    (Dw : Mat m k K) (Dh : Mat k n K)
    (h : qLoss V U (fun i a => W i a + Dw i a) (fun a j => H a j + Dh a j) +
        qAux soft W0 (fun i a => W i a + Dw i a) Dw H0 (fun a j => H a j + Dh a j) Dh - baseQ < total) :
    exprPull V U W0 H0 soft baseQ total W H Dw Dh = (Dw, Dh) := by
  have e1 : scaled (1 : K) Dw = Dw := by funext i a; simp [scaled]
  have e2 : scaled (1 : K) Dh = Dh := by funext a j; simp [scaled]
  have hd : exprDQ V U W0 H0 soft baseQ W H (scaled 1 Dw) (scaled 1 Dh) < total := by rw [e1, e2]; exact h
  unfold exprPull
  rw [show (101 : ℕ) = 100 + 1 from rfl, scaleLoop, if_pos hd]
  simp only [e1, e2]

/-- Non-trivial case: the requested pull exceeds the limit and is scaled down, but not to zero. -/
example : (fun P : Mat 1 1 ℚ × Mat 1 1 ℚ => decide (0 < P.1 0 0 ∧ P.1 0 0 < 2))
    (exprPull (fun _ _ => 1) (fun _ _ => 1) (fun _ _ => 1) (fun _ _ => 1) 1 0 1 (fun _ _ => 1) (fun _ _ => 1) (fun _ _ => 2)
      (fun _ _ => 0)) = true := by decide +kernel

/-! ## C85 -/

theorem exprRow_b (W : Mat m k K) (H : Mat k n K) (mapping : PyDict (List Char) (ExprEntry K)) (i : ℕ) (es : List (List Char)) :
    ∀ (row row' : ℕ → K) (b b' : K), exprRow W H mapping i es row b = some (row', b') →
    ∃ vs : List K, vs.length = es.length ∧ b' = b + vs.sum ∧
      ∀ (t : ℕ) (e : List Char) (v : K), es[t]? = some e → vs[t]? = some v →
        ∃ en, dictGet mapping e = some en ∧ elementValue W H en = some v := by
  induction es with
  | nil =>
    intro row row' b b' h
    simp only [exprRow, Option.some.injEq, Prod.mk.injEq] at h
    exact ⟨[], rfl, by simp [h.2], by simp⟩
  | cons e es ih =>
    intro row row' b b' h
    simp only [exprRow, Option.bind_eq_some_iff] at h
    obtain ⟨en, h1, v, h2, c, h3, h⟩ := h
    obtain ⟨vs, i1, i2, i3⟩ := ih _ _ _ _ h
    refine ⟨v :: vs, by simp [i1], by rw [i2, List.sum_cons]; ring, ?_⟩
    intro t e' v' h4 h5
    cases t with
    | zero =>
      simp only [List.getElem?_cons_zero, Option.some.injEq] at h4 h5
      subst h4 h5
      exact ⟨en, h1, h2⟩
    | succ t => exact i3 t e' v' (by simpa using h4) (by simpa using h5)

/-- **Disagreement.** The expression `Σ c·x = 0` is turned into the equation `Σ c·x = Σ current values of the elements` (without
coefficients). For positive elements no vector that solves the equation satisfies the expression: its value is the sum of the
current values, which is positive. The text on the right of `=` is never used (in `C45_parse` it is arbitrary). -/
theorem C85_refuted (W : Mat m k K) (H : Mat k n K) (mapping : PyDict (List Char) (ExprEntry K)) (i : ℕ) (es : List (List Char))
    (hne : es ≠ []) (hpos : ∀ e ∈ es, ∀ en v, dictGet mapping e = some en → elementValue W H en = some v → 0 < v)
    (row : ℕ → K) (b : K) (h : exprRow W H mapping i es (fun _ => 0) 0 = some (row, b)) (N : ℕ) (x : ℕ → K)
    (hx : ∑ j ∈ Finset.range N, row j * x j = b) : 0 < ∑ j ∈ Finset.range N, row j * x j := by
  obtain ⟨vs, h1, h2, h3⟩ := exprRow_b W H mapping i es _ _ _ _ h
  rw [hx, h2, zero_add]
  have hv : ∀ v ∈ vs, 0 < v := by
    intro v hv
    obtain ⟨t, ht, rfl⟩ := List.getElem_of_mem hv
    have ht' : t < es.length := by omega
    obtain ⟨en, h4, h5⟩ := h3 t es[t] vs[t] (by simp [ht']) (by simp [ht])
    exact hpos _ (List.getElem_mem ht') en _ h4 h5
  have hvne : vs ≠ [] := by
    rintro rfl
    exact hne (List.eq_nil_of_length_eq_zero h1.symm)
  clear h1 h2 h3 hx
  induction vs with
  | nil => exact absurd rfl hvne
  | cons v vs ih =>
    rw [List.sum_cons]
    have hv1 := hv v List.mem_cons_self
    rcases eq_or_ne vs [] with rfl | hne'
    · simpa using hv1
    · exact add_pos hv1 (ih (fun w hw => hv w (List.mem_cons_of_mem _ hw)) hne')

/-- Exactly when the target satisfies the expression: if the current values of its elements add up to zero. -/
theorem C85_correct_iff (W : Mat m k K) (H : Mat k n K) (mapping : PyDict (List Char) (ExprEntry K)) (i : ℕ) (es : List (List Char))
    (row : ℕ → K) (b : K) (h : exprRow W H mapping i es (fun _ => 0) 0 = some (row, b)) (N : ℕ) (x : ℕ → K)
    (hx : ∑ j ∈ Finset.range N, row j * x j = b) :
    ∃ vs : List K, vs.length = es.length ∧
      (∀ (t : ℕ) e v, es[t]? = some e → vs[t]? = some v → ∃ en, dictGet mapping e = some en ∧ elementValue W H en = some v) ∧
      (∑ j ∈ Finset.range N, row j * x j = 0 ↔ vs.sum = 0) := by
  obtain ⟨vs, h1, h2, h3⟩ := exprRow_b W H mapping i es _ _ _ _ h
  refine ⟨vs, h1, h3, ?_⟩
  rw [hx, h2, zero_add]

/-- Concrete case: `(1*[factor:0|feature:0])-(1*[factor:0|feature:1])=0` with current values 3 and 5: row (1, -1), right hand
side 8; the current values already differ by -2 only, the solver is asked for a difference of 8. -/
example : (exprRow (K := ℚ) (m := 1) (n := 2) (k := 1) (fun _ _ => 1) (fun _ j => 3 + 2 * j.1)
    [(['a'], ⟨[1], [0], (0, 0), "feature".toList, 0⟩), (['b'], ⟨[-1], [0], (0, 1), "feature".toList, 1⟩)] 0 [['a'], ['b']]
    (fun _ => 0) 0).map (fun p => (p.1 0, p.1 1, p.2)) = some (1, -1, 8) := by decide +kernel

/-! ## C86 -/

/-- For profile elements the evaluation table shows the element the expression constrains. What is missing: contribution
elements (`C86_sample_refuted`). -/
theorem C86_feature_partial (W : Mat m k K) (H : Mat k n K) (en : ExprEntry K) (h : en.kind = "feature".toList) :
    evaluatedValue W H en = elementValue W H en := by
  unfold evaluatedValue elementValue
  rw [if_pos h, if_pos h]

/-- **Disagreement.** For a contribution element of factor `a` and sample `i` the constraint uses `W[i, a]`, the evaluation reads
`W[a, i]`: an `IndexError` when the sample number is not below the number of factors, otherwise another element. -/
theorem C86_sample_refuted (W : Mat m k K) (H : Mat k n K) (en : ExprEntry K) (h : en.kind = "sample".toList) (i : Fin m) (a : Fin k)
    (hi : en.index = ((a.1 : ℤ), (i.1 : ℤ))) :
    elementValue W H en = some (W i a) ∧ (k ≤ i.1 → evaluatedValue W H en = none) ∧
    ∀ (h1 : a.1 < m) (h2 : i.1 < k), evaluatedValue W H en = some (W ⟨a.1, h1⟩ ⟨i.1, h2⟩) := by
  have hne : en.kind ≠ "feature".toList := by rw [h]; decide
  unfold evaluatedValue elementValue
  rw [if_neg hne, if_neg hne, hi]
  refine ⟨by simp [axisIndex_val], fun hk => ?_, fun h1 h2 => by simp [axisIndex_nat h1, axisIndex_nat h2]⟩
  have : axisIndex k (i.1 : ℤ) = none := by
    rw [← Option.not_isSome_iff_eq_none, axisIndex_isSome]
    omega
  simp [this]

/-- For an existing contribution element of factor `a` and sample `i` the evaluation shows the element that the expression constrains, whatever the solution is, exactly if the two numbers are equal. -/
theorem C86_sample_iff (en : ExprEntry K) (h : en.kind = "sample".toList) (i : Fin m) (a : Fin k) (hi : en.index = ((a.1 : ℤ), (i.1 : ℤ))) :
    (∀ (W : Mat m k K) (H : Mat k n K), evaluatedValue W H en = elementValue W H en) ↔ i.1 = a.1 := by
  constructor
  · intro hall
    by_contra hne
    obtain ⟨e1, e2, e3⟩ := C86_sample_refuted (fun i' a' => if i' = i ∧ a' = a then (1 : K) else 0) (fun (_ : Fin k) (_ : Fin n) => (0 : K)) en h i a hi
    have := hall (fun i' a' => if i' = i ∧ a' = a then (1 : K) else 0) (fun _ _ => 0)
    rw [e1] at this
    by_cases hk : k ≤ i.1
    · rw [e2 hk] at this
      simp at this
    · by_cases hm : a.1 < m
      · rw [e3 hm (not_le.1 hk)] at this
        simp [Fin.ext_iff, Ne.symm hne] at this
      · have hfe : en.kind ≠ "feature".toList := by rw [h]; decide
        unfold evaluatedValue at this
        have hn : axisIndex m (a.1 : ℤ) = none := by
          rw [← Option.not_isSome_iff_eq_none, axisIndex_isSome]
          omega
        rw [if_neg hfe, hi, hn] at this
        simp at this
  · intro he W H
    obtain ⟨e1, -, e3⟩ := C86_sample_refuted W H en h i a hi
    have h1 : a.1 < m := he ▸ i.2
    have h2 : i.1 < k := he ▸ a.2
    rw [e1, e3 h1 h2]
    have f1 : (⟨a.1, h1⟩ : Fin m) = i := Fin.ext he.symm
    have f2 : (⟨i.1, h2⟩ : Fin k) = a := Fin.ext he
    rw [f1, f2]

end budget

end Esat
