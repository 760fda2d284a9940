import Verif.Tsc.Index
import Verif.Transform.Columns
import Std.Data.String.ToInt
/-!
# Model of `to_csv` and `from_csv`

`datafold/pcfold/timeseries/collection.py` 777-822.  The text is a list of characters.  Writing and reading of the text follow the documentation of `pandas.DataFrame.to_csv` (defaults: separator `,`,
minimal quoting, doubled quotes, index labels in the header) and of `pandas.read_csv` (`index_col=[0, 1]`, `header=[0]`; empty lines are skipped, empty names are replaced, repeated names get a suffix, and the type of
a column is inferred from its entries).  How floating point and complex numbers and dates are written and read is a parameter (`Codec`).
Carriage returns are not modelled (the specification excludes them from the names).
-/

namespace Verif.Tsc

open Verif.Transform (Label)

/-! ## The text -/

/-- Characters that force quotes: separator, quote and end of a line (`csv.QUOTE_MINIMAL`). -/
def isSpecial (c : Char) : Bool := c == ',' || c == '"' || c == '\n'

/-- A quote inside of quotes is doubled. -/
def escapeQuotes : List Char → List Char
  | [] => []
  | c :: l => if c = '"' then '"' :: '"' :: escapeQuotes l else c :: escapeQuotes l

/-- One field. -/
def quoteField (f : List Char) : List Char := if f.any isSpecial then '"' :: (escapeQuotes f ++ ['"']) else f

/-- One line, with its end. -/
def csvLine : List (List Char) → List Char
  | [] => ['\n']
  | [f] => quoteField f ++ ['\n']
  | f :: g :: l => quoteField f ++ ',' :: csvLine (g :: l)

/-- `pd.DataFrame.to_csv` for the table of entries. -/
def csvText (rows : List (List (List Char))) : List Char := rows.flatMap csvLine

/-- States of the reader: at the start of a field, in a field, in quotes, behind a quote inside of quotes. -/
inductive CsvSt | start | plain | quoted | quoteEnd
deriving DecidableEq

/-- `pd.read_csv`: the table of entries of a text. `fld` is the field and `row` the row read so far. -/
def csvRead : CsvSt → List Char → List (List Char) → List Char → List (List (List Char))
  | st, fld, row, [] => if st = .start ∧ row = [] then [] else [row ++ [fld]]
  | .start, fld, row, c :: l =>
    if c = ',' then csvRead .start [] (row ++ [fld]) l
    else if c = '\n' then (if row = [] then csvRead .start [] [] l else (row ++ [fld]) :: csvRead .start [] [] l)
    else if c = '"' then csvRead .quoted fld row l
    else csvRead .plain (fld ++ [c]) row l
  | .plain, fld, row, c :: l =>
    if c = ',' then csvRead .start [] (row ++ [fld]) l
    else if c = '\n' then (row ++ [fld]) :: csvRead .start [] [] l
    else csvRead .plain (fld ++ [c]) row l
  | .quoted, fld, row, c :: l => if c = '"' then csvRead .quoteEnd fld row l else csvRead .quoted (fld ++ [c]) row l
  | .quoteEnd, fld, row, c :: l =>
    if c = '"' then csvRead .quoted (fld ++ [c]) row l
    else if c = ',' then csvRead .start [] (row ++ [fld]) l
    else if c = '\n' then (row ++ [fld]) :: csvRead .start [] [] l
    else csvRead .plain (fld ++ [c]) row l

/-! ## The entries -/

/-- An entry of the table: a floating point number is an `F`, a complex number (other than `nan`) a `C`. -/
inductive Cell (F C : Type) | int (z : Int) | flt (x : F) | cpx (c : C) | date (z : Int) | text (s : List Char)

/-- How numbers and dates are written and floating point numbers are read; and the value of a floating point number (`none` for `nan`). -/
structure Codec (F C : Type) where
  printF : F → List Char
  printC : C → List Char
  printD : Int → List Char
  parseF : List Char → Option F
  value : F → Option Rat

variable {F C : Type}

/-- An integer as text. -/
def intText (z : Int) : List Char := (toString z).toList

/-- A text as integer. -/
def parseInt (s : List Char) : Option Int := (String.ofList s).toInt?

/-- `to_csv`: an entry as text. -/
def Cell.print (K : Codec F C) : Cell F C → List Char
  | .int z => intText z
  | .flt x => K.printF x
  | .cpx c => K.printC c
  | .date z => K.printD z
  | .text s => s

/-- The types that `read_csv` infers. -/
inductive CKind | int | flt | text
deriving DecidableEq

/-- The type of column `j`: integers if all entries are integers, floating point numbers if all entries are numbers, otherwise objects. -/
def colKind (K : Codec F C) (rows : List (List (List Char))) (j : Nat) : CKind :=
  if rows.all (fun r => (parseInt (r.getD j [])).isSome) then .int
  else if rows.all (fun r => (K.parseF (r.getD j [])).isSome) then .flt
  else .text

/-- One entry of a column of the given type. -/
def convert (K : Codec F C) (k : CKind) (s : List Char) : Cell F C :=
  match k with
  | .int => ((parseInt s).map Cell.int).getD (.text s)
  | .flt => ((K.parseF s).map Cell.flt).getD (.text s)
  | .text => .text s

/-! ## The header -/

/-- The label of a column as text. -/
def labelText : Label → String
  | .int z => toString z
  | .str s => s

/-- A name that is not used yet for a repeated name (`read_csv`: `X.1`, `X.2`, …). -/
def freshName (used : List String) (n : String) : String :=
  (((List.range (used.length + 1)).map (fun k => n ++ "." ++ toString (k + 1))).find? (fun c => !used.contains c)).getD (n ++ ".")

/-- Repeated names get a suffix. -/
def mangle (header : List String) (seen : List String) : List String → List String
  | [] => []
  | n :: l =>
    let m := if n ∈ seen then freshName (header ++ seen) n else n
    m :: mangle header (m :: seen) l

/-- Empty names are replaced (`Unnamed: j`). -/
def nameUnnamed (l : List String) : List String := l.mapIdx (fun j n => if n = "" then "Unnamed: " ++ toString j else n)

/-- The names that `read_csv` gives to the columns of the file. -/
def readNames (l : List String) : List String := mangle (nameUnnamed l) [] (nameUnnamed l)

/-! ## Collections -/

/-- A data frame with two index levels: labels of the columns, and for each row ID, time value and values. -/
structure Table (F C : Type) where
  labels : List Label
  rows : List (List (Cell F C))

/-- Exceptions of `from_csv`. -/
inductive CsvErr | empty | idNotInteger | notNumeric | tsc (e : Err)
deriving DecidableEq

/-- The value of an index entry. -/
def Cell.num (K : Codec F C) : Cell F C → Option Rat
  | .int z => some z
  | .flt x => K.value x
  | .date z => some z
  | _ => none

def Cell.isInt : Cell F C → Bool | .int _ => true | _ => false
def Cell.isFlt : Cell F C → Bool | .flt _ => true | _ => false
def Cell.isDate : Cell F C → Bool | .date _ => true | _ => false
def Cell.isText : Cell F C → Bool | .text _ => true | _ => false

/-- Entries of numeric type (collection.py 952-954, `pandas.api.types.is_numeric_dtype`). -/
def Cell.isNumeric : Cell F C → Bool | .int _ | .flt _ | .cpx _ => true | _ => false

/-- Entry `j` of a row. -/
def cellAt (r : List (Cell F C)) (j : Nat) : Cell F C := r.getD j (.text [])

/-- The type of the time level. -/
def timeKindOf (l : List (Cell F C)) : Kind :=
  if l.all Cell.isInt then .i else if l.all Cell.isFlt then .f else if l.all Cell.isDate then .M else .other

/-- The index of the frame. -/
def Table.rawIndex (K : Codec F C) (t : Table F C) : RawIndex :=
  ⟨true, 2, t.rows.map (fun r => ((cellAt r 0).num K, (cellAt r 1).num K)), timeKindOf (t.rows.map (fun r => cellAt r 1)), false⟩

/-- The columns of the frame. -/
def Table.rawColumns (t : Table F C) : RawColumns := ⟨1, t.labels.map (fun l => (match l with | .int _ => "int" | .str _ => "str", labelText l))⟩

/-- `TSCDataFrame(df)` (collection.py 309-356, 956-965). Texts as IDs cannot be converted to integers (855-867). -/
def tscInit (K : Codec F C) (t : Table F C) : Except CsvErr (Table F C) :=
  if t.rows.any (fun r => (cellAt r 0).isText) then .error .idNotInteger
  else match validate (t.rawIndex K) t.rawColumns with
    | .error e => .error (.tsc e)
    | .ok () => if t.rows.all (fun r => (r.drop 2).all Cell.isNumeric) then .ok t else .error .notNumeric

/-- `TSCDataFrame.to_csv` (collection.py 777-798): the names of the index levels are `ID` and `time` (294-295). -/
def toCsv (K : Codec F C) (t : Table F C) : List Char :=
  csvText (("ID".toList :: "time".toList :: t.labels.map (fun l => (labelText l).toList)) :: t.rows.map (fun r => r.map (Cell.print K)))

/-- `TSCDataFrame.from_csv` (collection.py 800-822). -/
def fromCsv (K : Codec F C) (s : List Char) : Except CsvErr (Table F C) :=
  match csvRead .start [] [] s with
  | [] => .error .empty
  | header :: rows =>
    tscInit K ⟨((readNames (header.map String.ofList)).drop 2).map Label.str, rows.map (fun r => r.mapIdx (fun j x => convert K (colKind K rows j) x))⟩

end Verif.Tsc
