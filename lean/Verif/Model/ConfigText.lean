import Mathlib.Data.List.Basic
import Mathlib.Tactic.Common

/-!
# Model of the project directory in the configuration files

`setup` and `simulator setup` store the project directory with `config['project']['directory'] = project_directory` and write the configuration to a
file (`esat/cli/esat_cli.py:160-164,194-198,200-206`); `get_config` reads the file and `run` takes `config["project"]["directory"]` from it
(`esat_cli.py:55-66,71,478`). The configurations are `configparser.ConfigParser()` objects (`esat/configs.py:5,37`, `esat_cli.py:64`), so values
are interpolated: this file has the rules of `configparser.BasicInterpolation` of the Python library (`before_set`, `before_get`, `_interpolate_some`).

Texts are lists of characters. A value is written behind `directory = ` and read from the rest of the line, without blanks at its ends. Values
with line breaks, which are written as several lines, are not modelled. `ws` says which characters count as blanks.
-/

namespace Esat

/-- `value.replace('%%', '')`. -/
def cfgDropPairs : List Char → List Char
  | '%' :: '%' :: r => cfgDropPairs r
  | c :: r => c :: cfgDropPairs r
  | [] => []

/-- `re.match(r"%\(([^)]+)\)s", text)`: the name and the rest of the text. -/
def cfgKey : List Char → Option (List Char × List Char)
  | '%' :: '(' :: r =>
    match r.takeWhile (· ≠ ')'), r.dropWhile (· ≠ ')') with
    | c :: name, ')' :: 's' :: rest => some (c :: name, rest)
    | _, _ => none
  | _ => none

theorem cfgKey_eq {l name rest : List Char} (h : cfgKey l = some (name, rest)) : l = '%' :: '(' :: (name ++ ')' :: 's' :: rest) ∧ name ≠ [] := by
  unfold cfgKey at h
  split at h
  · rename_i r
    split at h
    · rename_i c nm rst h1 h2
      simp only [Option.some.injEq, Prod.mk.injEq] at h
      obtain ⟨rfl, rfl⟩ := h
      refine ⟨?_, List.cons_ne_nil _ _⟩
      rw [← h1, ← h2, List.takeWhile_append_dropWhile]
    · exact absurd h (by simp)
  · exact absurd h (by simp)

theorem cfgKey_lt {l name rest : List Char} (h : cfgKey l = some (name, rest)) : rest.length < l.length := by
  rw [(cfgKey_eq h).1]
  simp
  omega

/-- `re.sub(r"%\(([^)]+)\)s", '', text)`. -/
def cfgDropKeys (l : List Char) : List Char :=
  match h : cfgKey l with
  | some (_, rest) => cfgDropKeys rest
  | none =>
    match l with
    | [] => []
    | c :: r => c :: cfgDropKeys r
termination_by l.length
decreasing_by
  · exact cfgKey_lt h
  · simp

/-- Whether `config[section][option] = value` accepts the value (`BasicInterpolation.before_set`); otherwise a `ValueError`. -/
def cfgAccepts (v : List Char) : Bool := !(cfgDropKeys (cfgDropPairs v)).contains '%'

/-- The errors of reading. -/
inductive CfgErr
  /-- `InterpolationSyntaxError` -/
  | syn
  /-- `InterpolationMissingOptionError` -/
  | missing
  /-- `InterpolationDepthError` -/
  | depth
  deriving DecidableEq

/-- `_interpolate_some`: `opts` are the options of the section, the first argument is the number of levels that are left. -/
def cfgInterp (opts : List Char → Option (List Char)) : ℕ → List Char → Except CfgErr (List Char)
  | 0, _ => .error .depth
  | f + 1, l =>
    match h : l with
    | [] => .ok []
    | '%' :: '%' :: r => (cfgInterp opts (f + 1) r).map ('%' :: ·)
    | '%' :: '(' :: r =>
      match hk : cfgKey ('%' :: '(' :: r) with
      | none => .error .syn
      | some (name, rest) =>
        match opts (name.map Char.toLower) with
        | none => .error .missing
        | some v =>
          match (if v.contains '%' then cfgInterp opts f v else .ok v) with
          | .error e => .error e
          | .ok a => (cfgInterp opts (f + 1) rest).map (a ++ ·)
    | '%' :: _ => .error .syn
    | c :: r => (cfgInterp opts (f + 1) r).map (c :: ·)
termination_by f l => (f, l.length)
decreasing_by
  · exact Prod.Lex.right _ (by simp; omega)
  · exact Prod.Lex.left _ _ (Nat.lt_succ_self _)
  · exact Prod.Lex.right _ (cfgKey_lt hk)
  · exact Prod.Lex.right _ (by simp)

/-- `text.strip()`. -/
def cfgStrip (ws : Char → Bool) (v : List Char) : List Char := ((v.dropWhile ws).reverse.dropWhile ws).reverse

/-- The section `project` of a file with the project directory `v`: in `run_config.toml` also the empty name (`configs.py:38-41`), in `sim_config.toml`
nothing else (`configs.py:6-8`). -/
def cfgProject (ws : Char → Bool) (sim : Bool) (v : List Char) (k : List Char) : Option (List Char) :=
  if k = "directory".toList then some (cfgStrip ws v) else if k = "name".toList ∧ !sim then some [] else none

/-- `config["project"]["directory"]` read from a file that was written with the directory `v`; `MAX_INTERPOLATION_DEPTH` is 10. -/
def cfgReadDir (ws : Char → Bool) (sim : Bool) (v : List Char) : Except CfgErr (List Char) :=
  cfgInterp (cfgProject ws sim v) 10 (cfgStrip ws v)

end Esat
