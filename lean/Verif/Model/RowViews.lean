import Verif.Model.Table
/-
Going between the values and the rows of a binary table.
-/

namespace Fitsrs

/-- `TableRowData::get_row_idx` (src/hdu/data/bintable/row.rs:23-25). -/
def TableRows.getRowIdx (r : TableRows) : Nat := r.row

/-- `TableRowData::table_data` (src/hdu/data/bintable/row.rs:36-38). -/
def TableRows.tableData (r : TableRows) : TableData := r.data

/-- What a program holds: the values of a table, or its rows. -/
inductive TableView where
  | values (t : TableData)
  | rows (r : TableRows)
  deriving DecidableEq, Repr

/-- A call on it. -/
inductive ViewCall where
  /-- `Iterator::next`. -/
  | next
  /-- `TableData::row_iter` (src/hdu/data/bintable/data.rs:441-443). -/
  | rowIter
  /-- `TableRowData::table_data`. -/
  | tableData
  deriving DecidableEq, Repr

/-- What a call gives. -/
inductive ViewAnswer where
  | value (v : Option DataValue)
  | row (vs : Option (List DataValue))
  | unit
  deriving DecidableEq, Repr

namespace TableView

/-- The table that is read. -/
def table : TableView → TableData
  | .values t => t
  | .rows r => r.tableData

/-- A call; `none`: the loop over the values of a row has not finished with that fuel.  `row_iter` on rows and `table_data` on values,
which do not compile, do nothing. -/
def call (p : Profile) (fuel : Nat) : ViewCall → TableView → Option (Res ViewAnswer × TableView)
  | .next, .values t =>
    match t.next p with
    | (.ok v, t) => some (.ok (.value v), .values t)
    | (.err e, t) => some (.err e, .values t)
    | (.panic, t) => some (.panic, .values t)
  | .next, .rows r =>
    match r.next p fuel with
    | none => none
    | some (.ok vs, r) => some (.ok (.row vs), .rows r)
    | some (.err e, r) => some (.err e, .rows r)
    | some (.panic, r) => some (.panic, .rows r)
  | .rowIter, .values t => some (.ok .unit, .rows (TableRows.new t))
  | .tableData, .rows r => some (.ok .unit, .values r.tableData)
  | _, v => some (.ok .unit, v)

/-- The calls of a program, and what it holds at the end. -/
def run (p : Profile) (fuel : Nat) : List ViewCall → TableView → Option (List (Res ViewAnswer) × TableView)
  | [], v => some ([], v)
  | c :: cs, v =>
    match v.call p fuel c with
    | none => none
    | some (r, v) =>
      match run p fuel cs v with
      | none => none
      | some (rs, v) => some (r :: rs, v)

end TableView
end Fitsrs
