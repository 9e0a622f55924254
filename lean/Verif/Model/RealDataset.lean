import Verif.Model.Dataset

/-!
# Model of the loading of `OpenBanditDataset` (`obp/dataset/real.py:66-208`)

A file is a list of rows. Timestamps and features are elements of arbitrary linear orders (strings in the shipped files, compared as
Python does). Missing values and numeric user features are left out.
-/

namespace Obp

/-- One row of the log file (`obp/dataset/real.py:176-186`); `user` are the values of the columns named `user_feature…`, `other` those
of all other columns, such as the user-item affinities. -/
structure ObdRow (T S K : Type) where
  timestamp : T
  item : ℕ
  position : ℤ
  click : K
  propensity : K
  user : List S
  other : List K
  deriving DecidableEq

/-- One row of `item_context.csv` (`obp/dataset/real.py:178-180, 202-207`): the number `item_feature_0` and the other features. -/
structure ObdItem (S K : Type) where
  item : ℕ
  number : K
  features : List S
  deriving DecidableEq

section encode
variable {S K : Type} [LinearOrder S] [Zero K] [One K]

/-- The distinct values of a column in increasing order. -/
def colLevels (col : List S) : List S := col.dedup.insertionSort (· ≤ ·)

/-- `LabelEncoder().fit_transform(col)` at the value `x` (`obp/dataset/real.py:202-204`), a library function: the number of smaller
values in the column. -/
def labelCode (col : List S) (x : S) : ℕ := ((colLevels col).filter (· < x)).length

/-- Column `d` of a table given by rows. -/
def tableCol (rows : List (List S)) (d : ℕ) : List S := rows.filterMap (·[d]?)

/-- `pd.get_dummies(table, drop_first=True)` (`obp/dataset/real.py:198-200`), a library function: for every column one indicator per
value except the smallest. -/
def getDummies (m : ℕ) (rows : List (List S)) : List (List K) :=
  rows.map fun r => (List.range m).flatMap fun d => (colLevels (tableCol rows d)).tail.map fun c => if r[d]? = some c then 1 else 0

/-- `action_context` (`obp/dataset/real.py:201-207`): in the order of the file, the codes of the features followed by the number. -/
def obdActionContext (code : ℕ → K) (items : List (ObdItem S K)) : List (List K) :=
  items.map fun it => (it.features.mapIdx fun d x => code (labelCode (tableCol (items.map (·.features)) d) x)) ++ [it.number]

end encode

section load
variable {T S K : Type} [LinearOrder T] [LinearOrder S] [Zero K] [One K]

/-- `load_raw_data` and `pre_process` (`obp/dataset/real.py:174-208`): `sort` is `sort_values("timestamp")`, which need not be stable;
`m` is the number of user features. -/
def obdLoad (sort : List (ObdRow T S K) → List (ObdRow T S K)) (m : ℕ) (file : List (ObdRow T S K)) : ObdLog K (List K) :=
  let data := sort file
  { action := data.map (·.item)
    position := data.map fun r => denseRank (data.map (·.position)) r.position
    reward := data.map (·.click)
    pscore := data.map (·.propensity)
    context := getDummies m (data.map (·.user)) }

/-- `len_list` (`obp/dataset/real.py:118-121`). -/
def obdLenList (log : ObdLog K (List K)) : Py ℕ := do
  let p ← npMax log.position
  pure (p + 1)

/-- `n_rounds` (`obp/dataset/real.py:103-106`). -/
def obdRounds (log : ObdLog K (List K)) : ℕ := log.action.length

/-- `dim_context` (`obp/dataset/real.py:113-116`), the number of columns of the context: `pd.get_dummies` returns a table with as many
columns for every round; `none` stands for the empty log. -/
def obdDimContext (log : ObdLog K (List K)) : Option ℕ := log.context.head?.map List.length

end load

/-- The argument `data_path`. -/
inductive DataPath
  | none
  | str (s : String)
  | path (s : String)
  | other

/-- `OpenBanditDataset.__post_init__` (`obp/dataset/real.py:66-99`), the checks: the files that are read, as path components below the
directory. `shipped` is the directory of the small data set. Arguments that are no strings are refused by `not in`, as other strings. -/
def obdFiles (shipped : String) (behavior campaign : String) (p : DataPath) : Py (List String × List String) := do
  raiseIf (behavior ∉ ["bts", "random"]) .valueError
  raiseIf (campaign ∉ ["all", "men", "women"]) .valueError
  let dir ← match p with
    | .none => pure shipped
    | .path s => pure s
    | .str s => pure s
    | .other => .error .valueError
  pure ([dir, behavior, campaign, campaign ++ ".csv"], [dir, behavior, campaign, "item_context.csv"])

end Obp
