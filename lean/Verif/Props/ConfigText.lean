import Verif.Model.ConfigText
import Verif.Model.Setup

/-!
# C262: project directories with percent signs or blanks

configparser interpolates the values of a configuration; the commands store the project directory as it is.
-/

namespace Esat

/-! ## Specification -/

/-- The text that has to be stored so that `v` is read: each percent sign doubled. -/
def doubled (v : List Char) : List Char := v.flatMap fun c => if c = '%' then ['%', '%'] else [c]

/-- Each percent sign is followed by something else than a percent sign or an opening parenthesis. -/
def LonePercent (v : List Char) : Prop := '%' ∈ v ∧ ∀ x y, v = x ++ '%' :: y → ∀ c z, y = c :: z → c ≠ '%' ∧ c ≠ '('

/-! ## The interpolation -/

theorem interp_nil (opts) (f : ℕ) : cfgInterp opts (f + 1) [] = .ok [] := by
  rw [cfgInterp]

theorem interp_pair (opts) (f : ℕ) (r : List Char) : cfgInterp opts (f + 1) ('%' :: '%' :: r) = (cfgInterp opts (f + 1) r).map ('%' :: ·) := by
  rw [cfgInterp]

theorem interp_other (opts) (f : ℕ) (c : Char) (r : List Char) (h : c ≠ '%') : cfgInterp opts (f + 1) (c :: r) = (cfgInterp opts (f + 1) r).map (c :: ·) := by
  rw [cfgInterp]
  · exact fun _ hc _ => h hc
  · exact fun _ hc _ => h hc
  · exact fun hc => h hc

theorem interp_clean (opts) (f : ℕ) : ∀ v : List Char, '%' ∉ v → cfgInterp opts (f + 1) v = .ok v
  | [], _ => interp_nil opts f
  | c :: r, h => by
    rw [List.mem_cons, not_or] at h
    rw [interp_other _ _ _ _ (Ne.symm h.1), interp_clean opts f r h.2]
    rfl

theorem interp_doubled (opts) (f : ℕ) : ∀ v : List Char, cfgInterp opts (f + 1) (doubled v) = .ok v
  | [] => interp_nil opts f
  | c :: r => by
    have e : doubled (c :: r) = (if c = '%' then ['%', '%'] else [c]) ++ doubled r := by simp [doubled]
    rw [e]
    split
    · rename_i h
      subst h
      rw [show ['%', '%'] ++ doubled r = '%' :: '%' :: doubled r from rfl, interp_pair, interp_doubled opts f r]
      rfl
    · rename_i h
      rw [show [c] ++ doubled r = c :: doubled r from rfl, interp_other _ _ _ _ h, interp_doubled opts f r]
      rfl

/-- The ways in which a text can be read without an error. -/
theorem interp_cases {opts : List Char → Option (List Char)} {f : ℕ} {l r : List Char} (h : cfgInterp opts (f + 1) l = .ok r) :
    (l = [] ∧ r = []) ∨ (∃ l' r', l = '%' :: '%' :: l' ∧ r = '%' :: r' ∧ cfgInterp opts (f + 1) l' = .ok r') ∨
      (∃ name rest v a b, cfgKey l = some (name, rest) ∧ opts (name.map Char.toLower) = some v ∧ (if v.contains '%' then cfgInterp opts f v else .ok v) = .ok a ∧ cfgInterp opts (f + 1) rest = .ok b ∧ r = a ++ b) ∨
      ∃ c l' r', c ≠ '%' ∧ l = c :: l' ∧ r = c :: r' ∧ cfgInterp opts (f + 1) l' = .ok r' := by
  have hmap : ∀ {x : Except CfgErr (List Char)} {g : List Char → List Char}, x.map g = .ok r → ∃ r', x = .ok r' ∧ r = g r' := by
    intro x g hx
    cases x with
    | error e => exact absurd hx (by simp [Except.map])
    | ok y => exact ⟨y, rfl, by simpa [Except.map] using hx.symm⟩
  rw [cfgInterp.eq_def] at h
  simp only at h
  split at h
  · refine .inl ⟨rfl, ?_⟩
    injection h with h
    exact h.symm
  · obtain ⟨r', h1, h2⟩ := hmap h
    exact .inr (.inl ⟨_, r', rfl, h2, h1⟩)
  · split at h
    · exact absurd h (by simp)
    · rename_i name rest hk
      split at h
      · exact absurd h (by simp)
      · rename_i v hv
        split at h
        · exact absurd h (by simp)
        · rename_i a ha
          obtain ⟨b, h1, h2⟩ := hmap h
          exact .inr (.inr (.inl ⟨name, rest, v, a, b, hk, hv, ha, h1, h2⟩))
  · exact absurd h (by simp)
  · rename_i c r' h1 h2 h3
    obtain ⟨r'', h4, h5⟩ := hmap h
    refine .inr (.inr (.inr ⟨c, r', r'', ?_, rfl, h5, h4⟩))
    rintro rfl
    exact h3 rfl

theorem interp_key {opts : List Char → Option (List Char)} {f : ℕ} {l name rest v a b : List Char} (hk : cfgKey l = some (name, rest)) (hv : opts (name.map Char.toLower) = some v)
    (ha : (if v.contains '%' then cfgInterp opts f v else .ok v) = .ok a) (hb : cfgInterp opts (f + 1) rest = .ok b) : cfgInterp opts (f + 1) l = .ok (a ++ b) := by
  obtain ⟨rfl, -⟩ := cfgKey_eq hk
  rw [cfgInterp]
  split
  · rename_i h
    rw [hk] at h
    exact absurd h (by simp)
  · rename_i n' r' h
    rw [hk] at h
    simp only [Option.some.injEq, Prod.mk.injEq] at h
    obtain ⟨rfl, rfl⟩ := h
    rw [hv]
    simp only
    rw [ha]
    simp only
    rw [hb]
    rfl

/-- The options without the directory. -/
def others (opts : List Char → Option (List Char)) (k : List Char) : Option (List Char) := if k = "directory".toList then none else opts k

section
variable {opts : List Char → Option (List Char)}

/-- A text that is read either does not use the directory, or the directory itself is read one level deeper. -/
theorem interp_others (hd : ∀ w, opts "directory".toList = some w → w.contains '%' = true) (ho : ∀ k w, others opts k = some w → w = []) (f : ℕ) :
    ∀ n (l r : List Char), l.length = n → cfgInterp opts (f + 1) l = .ok r → cfgInterp (others opts) (f + 1) l = .ok r ∨ ∃ w r', opts "directory".toList = some w ∧ cfgInterp opts f w = .ok r' := by
  intro n
  induction n using Nat.strong_induction_on with
  | _ n ih =>
    intro l r hl h
    rcases interp_cases h with ⟨rfl, rfl⟩ | ⟨l', r', rfl, rfl, h1⟩ | ⟨name, rest, v, a, b, hk, hv, ha, hb, rfl⟩ | ⟨c, l', r', hc, rfl, rfl, h1⟩
    · exact .inl (interp_nil _ _)
    · rcases ih l'.length (by rw [← hl]; simp) l' r' rfl h1 with h2 | h2
      · left
        rw [interp_pair, h2]
        rfl
      · exact .inr h2
    · by_cases hn : name.map Char.toLower = "directory".toList
      · rw [hn] at hv
        rw [hd v hv, if_pos rfl] at ha
        exact .inr ⟨v, a, hv, ha⟩
      · have hv' : others opts (name.map Char.toLower) = some v := by rw [others, if_neg hn]; exact hv
        have hv0 := ho _ _ hv'
        rcases ih rest.length (by rw [← hl]; exact cfgKey_lt hk) rest b rfl hb with h2 | h2
        · left
          refine interp_key hk hv' ?_ h2
          rw [← ha, hv0]
          rfl
        · exact .inr h2
    · rcases ih l'.length (by rw [← hl]; simp) l' r' rfl h1 with h2 | h2
      · left
        rw [interp_other _ _ _ _ hc, h2]
        rfl
      · exact .inr h2

/-- Without the directory the number of levels does not matter, and nothing changes if it is added. -/
theorem others_any (ho : ∀ k w, others opts k = some w → w = []) (f g : ℕ) :
    ∀ n (l r : List Char), l.length = n → cfgInterp (others opts) (f + 1) l = .ok r → cfgInterp opts (g + 1) l = .ok r ∧ cfgInterp (others opts) (g + 1) l = .ok r := by
  intro n
  induction n using Nat.strong_induction_on with
  | _ n ih =>
    intro l r hl h
    rcases interp_cases h with ⟨rfl, rfl⟩ | ⟨l', r', rfl, rfl, h1⟩ | ⟨name, rest, v, a, b, hk, hv, ha, hb, rfl⟩ | ⟨c, l', r', hc, rfl, rfl, h1⟩
    · exact ⟨interp_nil _ _, interp_nil _ _⟩
    · obtain ⟨h2, h3⟩ := ih l'.length (by rw [← hl]; simp) l' r' rfl h1
      rw [interp_pair, interp_pair, h2, h3]
      exact ⟨rfl, rfl⟩
    · obtain ⟨h2, h3⟩ := ih rest.length (by rw [← hl]; exact cfgKey_lt hk) rest b rfl hb
      obtain rfl := ho _ _ hv
      have ha' : a = [] := by
        injection (show Except.ok (ε := CfgErr) [] = .ok a from ha) with h
        exact h.symm
      subst ha'
      have hv' : opts (name.map Char.toLower) = some [] := by
        unfold others at hv
        split at hv
        · exact absurd hv (by simp)
        · exact hv
      exact ⟨interp_key hk hv' rfl h2, interp_key hk hv rfl h3⟩
    · obtain ⟨h2, h3⟩ := ih l'.length (by rw [← hl]; simp) l' r' rfl h1
      rw [interp_other _ _ _ _ hc, interp_other _ _ _ _ hc, h2, h3]
      exact ⟨rfl, rfl⟩

theorem others_length (ho : ∀ k w, others opts k = some w → w = []) (f : ℕ) :
    ∀ n (l r : List Char), l.length = n → cfgInterp (others opts) (f + 1) l = .ok r → r.length ≤ l.length ∧ ('%' ∈ l → r.length < l.length) := by
  intro n
  induction n using Nat.strong_induction_on with
  | _ n ih =>
    intro l r hl h
    rcases interp_cases h with ⟨rfl, rfl⟩ | ⟨l', r', rfl, rfl, h1⟩ | ⟨name, rest, v, a, b, hk, hv, ha, hb, rfl⟩ | ⟨c, l', r', hc, rfl, rfl, h1⟩
    · exact ⟨le_rfl, fun h => absurd h (by simp)⟩
    · obtain ⟨h2, -⟩ := ih l'.length (by rw [← hl]; simp) l' r' rfl h1
      simp only [List.length_cons]
      exact ⟨by omega, fun _ => by omega⟩
    · obtain ⟨h2, -⟩ := ih rest.length (by rw [← hl]; exact cfgKey_lt hk) rest b rfl hb
      obtain rfl := ho _ _ hv
      have ha' : a = [] := by
        injection (show Except.ok (ε := CfgErr) [] = .ok a from ha) with h
        exact h.symm
      subst ha'
      have := cfgKey_lt hk
      rw [List.nil_append]
      exact ⟨by omega, fun _ => by omega⟩
    · obtain ⟨h2, h3⟩ := ih l'.length (by rw [← hl]; simp) l' r' rfl h1
      simp only [List.length_cons, List.mem_cons]
      refine ⟨by omega, fun h => ?_⟩
      have := h3 (h.resolve_left (Ne.symm hc))
      omega

/-- The directory is never read through itself. -/
theorem interp_self {w : List Char} (hw : opts "directory".toList = some w) (hp : w.contains '%' = true) (ho : ∀ k w, others opts k = some w → w = []) :
    ∀ (f : ℕ) (r : List Char), cfgInterp opts f w = .ok r → ∃ g, f = g + 1 ∧ cfgInterp (others opts) (g + 1) w = .ok r
  | 0, r, h => by
    rw [cfgInterp] at h
    exact absurd h (by simp)
  | f + 1, r, h => by
    refine ⟨f, rfl, ?_⟩
    rcases interp_others (fun x hx => by rw [hw] at hx; exact Option.some.inj hx ▸ hp) ho f _ w r rfl h with h1 | ⟨x, r', hx, h1⟩
    · exact h1
    · obtain rfl : w = x := by rw [hw] at hx; exact Option.some.inj hx
      obtain ⟨g, -, h2⟩ := interp_self hw hp ho f r' h1
      obtain ⟨h3, h4⟩ := others_any ho g f _ w r' rfl h2
      rw [h] at h3
      injection h3 with h3
      rw [h3]
      exact h4

end

/-! ## Reading the directory -/

theorem strip_length (ws : Char → Bool) (v : List Char) : (cfgStrip ws v).length ≤ v.length := by
  unfold cfgStrip
  rw [List.length_reverse]
  refine ((List.dropWhile_sublist ws).length_le).trans ?_
  rw [List.length_reverse]
  exact (List.dropWhile_sublist ws).length_le

theorem project_others (ws : Char → Bool) (sim : Bool) (v k w : List Char) (h : others (cfgProject ws sim v) k = some w) : w = [] := by
  unfold others cfgProject at h
  split at h
  · exact absurd h (by simp)
  · split at h
    · exact (Option.some.inj h).symm
    · exact absurd h (by simp)

/-- **C262, shorter.** A directory with a percent sign between the blanks at its ends is read as a shorter text, if it is read at all. -/
theorem C262_shorter (ws : Char → Bool) (sim : Bool) (v r : List Char) (hp : '%' ∈ cfgStrip ws v) (h : cfgReadDir ws sim v = .ok r) : r.length < v.length := by
  have hw : cfgProject ws sim v "directory".toList = some (cfgStrip ws v) := by simp [cfgProject]
  obtain ⟨g, -, h1⟩ := interp_self hw (by simpa using hp) (project_others ws sim v) 10 r h
  exact lt_of_lt_of_le ((others_length (project_others ws sim v) g _ _ r rfl h1).2 hp) (strip_length ws v)

/-- **C262, round trip.** The directory that `run` reads from the configuration file is the one given to `setup` exactly if it has no percent sign and no blanks at its ends. -/
theorem C262_round_trip (ws : Char → Bool) (sim : Bool) (v : List Char) : cfgReadDir ws sim v = .ok v ↔ '%' ∉ v ∧ cfgStrip ws v = v := by
  constructor
  · intro h
    have hp : '%' ∉ cfgStrip ws v := fun hp => absurd (C262_shorter ws sim v v hp h) (lt_irrefl _)
    have h1 : cfgReadDir ws sim v = .ok (cfgStrip ws v) := interp_clean _ 9 _ hp
    rw [h] at h1
    injection h1 with h1
    exact ⟨h1 ▸ hp, h1.symm⟩
  · rintro ⟨h1, h2⟩
    rw [cfgReadDir, h2]
    exact interp_clean _ 9 _ h1

/-! ## Storing the directory -/

theorem dropPairs_clean : ∀ v : List Char, '%' ∉ v → cfgDropPairs v = v
  | [], _ => rfl
  | c :: r, h => by
    rw [List.mem_cons, not_or] at h
    rw [cfgDropPairs, dropPairs_clean r h.2]
    rintro _ ⟨⟩
    exact absurd rfl h.1

theorem dropKeys_none {l : List Char} (h : cfgKey l = none) : cfgDropKeys l = match l with | [] => [] | c :: r => c :: cfgDropKeys r := by
  rw [cfgDropKeys]
  split
  · rename_i h1
    rw [h] at h1
    exact absurd h1 (by simp)
  · cases l <;> rfl

theorem key_none {c : Char} {r : List Char} (h : c ≠ '%' ∨ ∀ z, r ≠ '(' :: z) : cfgKey (c :: r) = none := by
  unfold cfgKey
  split
  · rename_i z hz
    simp only [List.cons.injEq] at hz
    rcases h with h | h
    · exact absurd hz.1 h
    · exact absurd hz.2 (h z)
  · rfl

theorem dropKeys_clean : ∀ v : List Char, '%' ∉ v → cfgDropKeys v = v
  | [], _ => by rw [dropKeys_none rfl]
  | c :: r, h => by
    rw [List.mem_cons, not_or] at h
    rw [dropKeys_none (key_none (.inl (Ne.symm h.1)))]
    simp only
    rw [dropKeys_clean r h.2]

theorem dropPairs_doubled : ∀ v : List Char, '%' ∉ cfgDropPairs (doubled v)
  | [] => by simp [doubled, cfgDropPairs]
  | c :: r => by
    have e : doubled (c :: r) = (if c = '%' then ['%', '%'] else [c]) ++ doubled r := by simp [doubled]
    rw [e]
    split
    · rw [show ['%', '%'] ++ doubled r = '%' :: '%' :: doubled r from rfl, cfgDropPairs]
      exact dropPairs_doubled r
    · rename_i h
      rw [show [c] ++ doubled r = c :: doubled r from rfl, cfgDropPairs]
      · rw [List.mem_cons, not_or]
        exact ⟨Ne.symm h, dropPairs_doubled r⟩
      · rintro _ ⟨⟩
        exact absurd rfl h

theorem dropWhile_self {ws : Char → Bool} {v : List Char} (h : v.dropWhile ws = v) : v = [] ∨ ∃ c r, v = c :: r ∧ ws c = false := by
  cases v with
  | nil => exact .inl rfl
  | cons c r =>
    right
    refine ⟨c, r, rfl, ?_⟩
    by_contra hc
    rw [Bool.not_eq_false] at hc
    rw [List.dropWhile_cons_of_pos hc] at h
    have := (List.dropWhile_sublist ws (l := r)).length_le
    rw [h] at this
    simp at this

theorem strip_iff (ws : Char → Bool) (v : List Char) : cfgStrip ws v = v ↔ (∀ c r, v = c :: r → ws c = false) ∧ ∀ c r, v = r ++ [c] → ws c = false := by
  constructor
  · intro h
    have h1 : v.dropWhile ws = v := by
      refine (List.dropWhile_sublist ws).eq_of_length_le ?_
      conv_lhs => rw [← h]
      unfold cfgStrip
      rw [List.length_reverse]
      refine ((List.dropWhile_sublist ws).length_le).trans ?_
      rw [List.length_reverse]
    have h2 : v.reverse.dropWhile ws = v.reverse := by
      unfold cfgStrip at h
      rw [h1] at h
      rw [← List.reverse_reverse (v.reverse.dropWhile ws), h]
    refine ⟨fun c r e => ?_, fun c r e => ?_⟩
    · rcases dropWhile_self h1 with h3 | ⟨c', r', h3, h4⟩
      · rw [e] at h3
        exact absurd h3 (by simp)
      · rw [e] at h3
        simp only [List.cons.injEq] at h3
        rw [h3.1]
        exact h4
    · rcases dropWhile_self h2 with h3 | ⟨c', r', h3, h4⟩
      · rw [e] at h3
        exact absurd h3 (by simp)
      · rw [e] at h3
        simp only [List.reverse_append, List.reverse_cons, List.reverse_nil, List.nil_append, List.singleton_append, List.cons.injEq] at h3
        rw [h3.1]
        exact h4
  · rintro ⟨h1, h2⟩
    have e1 : v.dropWhile ws = v := by
      cases v with
      | nil => rfl
      | cons c r => rw [List.dropWhile_cons_of_neg (by rw [h1 c r rfl]; simp)]
    unfold cfgStrip
    rw [e1]
    rcases List.eq_nil_or_concat v with rfl | ⟨r, c, rfl⟩
    · rfl
    · have := h2 c r (by simp)
      simp [List.dropWhile_cons_of_neg, this]

theorem doubled_snoc (r : List Char) (c : Char) : doubled (r ++ [c]) = doubled r ++ if c = '%' then ['%', '%'] else [c] := by simp [doubled]

theorem strip_doubled {ws : Char → Bool} (hws : ws '%' = false) {v : List Char} (h : cfgStrip ws v = v) : cfgStrip ws (doubled v) = doubled v := by
  rw [strip_iff] at h ⊢
  refine ⟨fun c r e => ?_, fun c r e => ?_⟩
  · cases v with
    | nil => exact absurd e (by simp [doubled])
    | cons d s =>
      have e' : doubled (d :: s) = (if d = '%' then ['%', '%'] else [d]) ++ doubled s := by simp [doubled]
      rw [e'] at e
      split at e
      · simp only [List.cons_append, List.cons.injEq] at e
        rw [← e.1]
        exact hws
      · simp only [List.cons_append, List.cons.injEq] at e
        rw [← e.1]
        exact h.1 d s rfl
  · rcases List.eq_nil_or_concat v with rfl | ⟨s, d, rfl⟩
    · exact absurd e (by simp [doubled])
    · rw [List.concat_eq_append] at e h
      rw [doubled_snoc] at e
      split at e
      · have : (doubled s ++ ['%']) ++ ['%'] = r ++ [c] := by rw [← e]; simp
        rw [← (List.append_inj' this rfl).2 |> List.cons.inj |>.1]
        exact hws
      · rw [← (List.append_inj' e rfl).2 |> List.cons.inj |>.1]
        exact h.2 d s rfl

/-- **C262, the escape.** Every directory without blanks at its ends could be stored: with its percent signs doubled it is accepted and read as it was. The commands do not double them. -/
theorem C262_doubled (ws : Char → Bool) (hws : ws '%' = false) (sim : Bool) (v : List Char) (h : cfgStrip ws v = v) : cfgAccepts (doubled v) = true ∧ cfgReadDir ws sim (doubled v) = .ok v := by
  constructor
  · unfold cfgAccepts
    rw [dropKeys_clean _ (dropPairs_doubled v)]
    simpa using dropPairs_doubled v
  · rw [cfgReadDir, strip_doubled hws h]
    exact interp_doubled _ 9 v

theorem lone_tail {c : Char} {r : List Char} (h : ∀ x y, c :: r = x ++ '%' :: y → ∀ c z, y = c :: z → c ≠ '%' ∧ c ≠ '(') : ∀ x y, r = x ++ '%' :: y → ∀ c z, y = c :: z → c ≠ '%' ∧ c ≠ '(' :=
  fun x y e => h (c :: x) y (by rw [e]; rfl)

theorem lone_pairs : ∀ v : List Char, (∀ x y, v = x ++ '%' :: y → ∀ c z, y = c :: z → c ≠ '%' ∧ c ≠ '(') → cfgDropPairs v = v
  | [], _ => rfl
  | c :: r, h => by
    rw [cfgDropPairs, lone_pairs r (lone_tail h)]
    rintro z hc rfl
    subst hc
    exact (h [] ('%' :: z) rfl '%' z rfl).1 rfl

theorem lone_keys : ∀ v : List Char, (∀ x y, v = x ++ '%' :: y → ∀ c z, y = c :: z → c ≠ '%' ∧ c ≠ '(') → cfgDropKeys v = v
  | [], _ => by rw [dropKeys_none rfl]
  | c :: r, h => by
    have hk : cfgKey (c :: r) = none := by
      refine key_none ?_
      by_cases hc : c = '%'
      · right
        rintro z rfl
        subst hc
        exact (h [] ('(' :: z) rfl '(' z rfl).2 rfl
      · exact .inl hc
    rw [dropKeys_none hk]
    simp only
    rw [lone_keys r (lone_tail h)]

/-- **C262, refused.** A directory with percent signs, none of them followed by another one or by an opening parenthesis, is refused with a `ValueError`; one without percent signs is accepted. -/
theorem C262_refused (v : List Char) : (LonePercent v → cfgAccepts v = false) ∧ ('%' ∉ v → cfgAccepts v = true) := by
  constructor
  · rintro ⟨h1, h2⟩
    unfold cfgAccepts
    rw [lone_pairs v h2, lone_keys v h2]
    simpa using h1
  · intro h
    unfold cfgAccepts
    rw [dropPairs_clean v h, dropKeys_clean v h]
    simpa using h

/-- **C262, the command.** With these rules `setup` of a directory with such percent signs ends with an exception in every state in which it gets past the creation of the directory, and writes nothing. -/
theorem C262_setup {L : Type*} [DecidableEq L] (E : SetupEnv L) (hE : ∀ s, E.accepts s = cfgAccepts s.toList) (p : SetupProc) (fs fs' : L → Option (Node ConfFile)) (d : String) (hd : LonePercent d.toList)
    (hf : setupDir E fs d = (fs', .done)) : setupCmd E p fs (.run d) = (p, fs', .raised) ∧ setupCmd E p fs (.sim d) = (p, fs', .raised) := by
  have h : E.accepts d = false := by rw [hE]; exact (C262_refused _).1 hd
  constructor
  · simp only [setupCmd, hf, h]
    rfl
  · simp only [setupCmd, hf, h]
    rfl

/-- **C262, reading.** A value in a configuration file edited by hand with such percent signs (for instance the name of a data file) cannot be read, whatever the other options of its section. -/
theorem C262_read (opts : List Char → Option (List Char)) (f : ℕ) : ∀ v : List Char, LonePercent v → cfgInterp opts (f + 1) v = .error .syn
  | [], h => absurd h.1 (by simp)
  | c :: r, ⟨h1, h2⟩ => by
    by_cases hc : c = '%'
    · subst hc
      rw [cfgInterp]
      · rintro z rfl
        exact (h2 [] ('%' :: z) rfl '%' z rfl).1 rfl
      · rintro z rfl
        exact (h2 [] ('(' :: z) rfl '(' z rfl).2 rfl
    · rw [interp_other _ _ _ _ hc, C262_read opts f r ⟨(List.mem_cons.1 h1).resolve_left (Ne.symm hc), lone_tail h2⟩]
      rfl

/-- **C262, another directory.** A directory with percent signs can also be accepted and read as another one, to which `run` then writes its output. -/
theorem C262_elsewhere (ws : Char → Bool) (hws : ws '%' = false) (v : List Char) (h : cfgStrip ws v = v) (hp : '%' ∈ v) :
    cfgAccepts (doubled v) = true ∧ cfgReadDir ws false (doubled v) = .ok v ∧ v ≠ doubled v := by
  obtain ⟨h1, h2⟩ := C262_doubled ws hws false v h
  refine ⟨h1, h2, fun e => ?_⟩
  have h3 : cfgReadDir ws false v = .ok v := by rw [← e] at h2; exact h2
  exact ((C262_round_trip ws false v).1 h3).1 hp

/-! ## Cases -/

/-- A space is the only blank. -/
def spaceOnly (c : Char) : Bool := c = ' '

/-- `50%_run` is refused. -/
example : LonePercent "50%_run".toList ∧ cfgAccepts "50%_run".toList = false := by
  have : LonePercent "50%_run".toList := by
    refine ⟨by decide, fun x y e c z hy => ?_⟩
    rw [hy] at e
    have : x = ['5', '0'] := by
      match x, e with
      | [], e => exact absurd e (by simp)
      | [_], e => exact absurd e (by simp)
      | [a, b], e => simp at e; obtain ⟨rfl, rfl, -⟩ := e; rfl
      | [_, _, _], e => simp at e
      | [_, _, _, _], e => simp at e
      | [_, _, _, _, _], e => simp at e
      | [_, _, _, _, _, _], e => simp at e
      | _ :: _ :: _ :: _ :: _ :: _ :: _ :: _, e => simp at e
    subst this
    simp at e
    rw [← e.1]
    decide
  exact ⟨this, (C262_refused _).1 this⟩

/-- `50%%_run` is accepted and read as `50%_run`. -/
example : cfgAccepts "50%%_run".toList = true ∧ cfgReadDir spaceOnly false "50%%_run".toList = .ok "50%_run".toList :=
  C262_doubled spaceOnly rfl false "50%_run".toList (by decide)

/-- `my run` is read as it is. -/
example : cfgReadDir spaceOnly false "my run".toList = .ok "my run".toList := (C262_round_trip spaceOnly false _).2 (by decide)

/-- `d/%(Name)s` is read as `d/` from `run_config.toml`. -/
example : cfgReadDir spaceOnly false "d/%(Name)s".toList = .ok "d/".toList := by
  have h0 : cfgStrip spaceOnly "d/%(Name)s".toList = "d/%(Name)s".toList := by decide
  rw [cfgReadDir, h0, show "d/%(Name)s".toList = 'd' :: '/' :: "%(Name)s".toList from rfl, interp_other _ _ _ _ (by decide), interp_other _ _ _ _ (by decide),
    interp_key (name := "Name".toList) (rest := []) (v := []) (a := []) (b := []) (by decide) (by decide) rfl (interp_nil _ _)]
  rfl

end Esat
