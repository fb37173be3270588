import Verif.Model.Format
import Verif.Model.Scheduler

/-!
# Texts of constraints, graphs and schedulers (src/graph/storage.rs, constraints.rs, scheduler.rs)

Strings are lists of characters. Formatter flags (width, alternate form) given by the caller are not modelled.
-/

namespace Chrono

/-- `{:>w}` on a string (Rust std): padded on the left with spaces to `w` characters -/
def padLeft (w : Nat) (s : List Char) : List Char := List.replicate (w - s.length) ' ' ++ s

/-- src/graph/constraints.rs:98-110 `Debug for TimeGraphConstraint` -/
def Constr.debugText (k : Constr) : List Char :=
  "(".toList ++ natStr k.src ++ "->".toList ++ natStr k.dst ++ ")=".toList ++ debugIv debugTv ⟨k.lower, k.upper⟩

/-- src/graph/constraints.rs:113-125 `Display for TimeGraphConstraint` -/
def Constr.displayText (k : Constr) : Res (List Char) := do
  return "t".toList ++ natStr k.dst ++ " - t".toList ++ natStr k.src ++ " in ".toList ++
    (← displayIv displayTv ⟨k.lower, k.upper⟩)

namespace Graph

/-- src/graph/storage.rs:145-160 `Debug for TimeGraph` -/
def debugText (g : Graph) : Res (List Char) := do
  let rows ← (List.range g.size).mapM fun i => do
    let cells ← (List.range g.size).mapM fun j => do
      return [' '] ++ padLeft 7 (debugTv (← g.lower i j))
    return ['['] ++ cells.flatten ++ " ]\n".toList
  return ['\n'] ++ rows.flatten

/-- src/graph/storage.rs:163-172 `Display for TimeGraph` -/
def displayText (g : Graph) : Res (List Char) := do
  let ks ← g.iterAll
  let lines ← ks.mapM fun k => do return "   ".toList ++ (← k.displayText) ++ ['\n']
  return "[graph with ".toList ++ natStr g.size ++ " instants]\n".toList ++ lines.flatten ++
    "[with ".toList ++ natStr ks.length ++ " constraints]\n".toList

end Graph

namespace Sched

/-- src/graph/scheduler.rs:145-150 `Debug for TimeScheduler` -/
def debugText (s : Sched) : List Char :=
  (s.schedule.zipIdx.map fun p =>
    "t".toList ++ natStr p.2 ++ " in ".toList ++ debugSet debugTs p.1 ++ ['\n']).flatten

/-- src/graph/scheduler.rs:153-158 `Display for TimeScheduler`, given the text of a timestamp -/
def displayText (disp : Int → Res (List Char)) (s : Sched) : Res (List Char) := do
  return (← s.schedule.zipIdx.mapM fun p => do
    return "t".toList ++ natStr p.2 ++ " in ".toList ++ (← displaySet disp p.1) ++ ['\n']).flatten

/-- src/graph/scheduler.rs:160-169 `TimeSetFormat for TimeScheduler`, given the text of a timestamp in the format;
`reduce` starts from the first text -/
def formatText (fp : Int → Res (List Char)) (s : Sched) : Res (List Char) := do
  let lines ← s.schedule.zipIdx.mapM fun p => do
    return "t".toList ++ natStr p.2 ++ " in ".toList ++ (← formatTimeset fp p.1) ++ ['\n']
  match lines with
  | [] => return "empty time scheduler (no instant)".toList
  | first :: rest => return rest.foldl (fun s1 s2 => s1 ++ s2) first

end Sched
end Chrono
