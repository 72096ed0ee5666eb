import Verif.Spec.Receive
import Verif.Spec.Queue
/-!
# Specification: a log file that survives crashes

A program keeps records in a file. It appends a record by one call of an output archive and writes the bytes `processed_data()` (zpp_bits.h:1951-1954) to the
file. A crash may leave any initial part of them in the file. After a crash the program reads records from the file by an input archive until it reports
`result_out_of_range`, takes the bytes in front of the first incomplete record as the buffer of a new output archive, and goes on appending there.
-/

namespace Zpp.Spec

/-- What happens: a record is appended, or a crash leaves the first `n` bytes of the file. -/
inductive LogOp
  | append (record : List (Ty × Val))
  | crash (n : Nat)

/-- Read records into objects of the given types from position `p` on, at most `n` of them, until one is not complete: the records and the position behind the
last complete one. `none`: an error other than `result_out_of_range`, or worse. -/
def scan (d : Nat) (c : Cfg) (dests : List (Ty × Val)) (data : List UInt8) : Nat → Nat → Option (List (List Val) × Nat)
  | 0, _ => none
  | n + 1, p =>
    match decMany d c data dests p with
    | ⟨.ok, vs, p'⟩ => (scan d c dests data n p').map fun r => (vs :: r.1, r.2)
    | ⟨.err .resultOutOfRange, _, _⟩ => some ([], p)
    | _ => none

/-- The program. `cut`: it cuts the buffer in front of the first incomplete record after a crash (as it should). The state is the buffer of the output archive and its position. Gives the records found
after each crash and the state in the end; `none` if a call failed. -/
def logRun (d : Nat) (c : Cfg) (noFit cut : Bool) (dests : List (Ty × Val)) : List LogOp → OutSt → Option (List (List (List Val)) × OutSt)
  | [], st => some ([], st)
  | .append record :: ops, st =>
    match outCall d c noFit record st with
    | (.ok, st') => logRun d c noFit cut dests ops st'
    | _ => none
  | .crash n :: ops, st =>
    let file := (st.data.take st.pos).take n
    (scan d c dests file (file.length + 1) 0).bind fun found =>
      (logRun d c noFit cut dests ops ⟨if cut then file.take found.2 else file, found.2⟩).map fun r => (found.1 :: r.1, r.2)

/-- What should happen to the list of records: a crash that leaves `n` bytes leaves the records that are complete within them. Gives the records after each crash
and the records in the end. -/
def logIdeal (f : Fmt) : List LogOp → List (List (Ty × Val)) → List (List (List Val)) × List (List (Ty × Val))
  | [], records => ([], records)
  | .append record :: ops, records => logIdeal f ops (records ++ [record])
  | .crash n :: ops, records =>
    let left := records.take (complete (records.map fun r => (wireItems f r).getD []) n)
    let r := logIdeal f ops left
    (left.map (List.map Prod.snd) :: r.1, r.2)

/-- The records appended. -/
def appended : List LogOp → List (List (Ty × Val))
  | [] => []
  | .append record :: ops => record :: appended ops
  | .crash _ :: ops => appended ops

end Zpp.Spec
