/-
Model of `PosixMutex::Lock` (PosixThreadEngine.h 40-46, PosixThreadEngine.cpp 278-347): the mutex of the system is tried, and then waited for, three seconds at a time; after each time over there
is a report, which locks other mutexes in turn.  What the system answers is a tree.  Of a report there are the mutexes it locks and releases and the time it names; that it sends a signal to the
owner is not modelled, nor what else may throw in it.
-/
namespace Verif.Thread.MutexLock

/-- What the system answers to `pthread_mutex_trylock` or `pthread_mutex_timedlock`: the mutex is got; there is an error; it is owned by another thread, or is still after the time, and what comes
of it: `locks` answers for the mutexes of a report if there is one.  For PosixThreadEngine.cpp 278-341. -/
inductive Answer where
  | got
  | error (code : Nat)
  | owned (locks next : Answer)    -- the answer to `trylock` has no report: 280
  | both (a b : Answer)            -- answers for one mutex after the other in a report
  | none                           -- no mutexes in a report
deriving DecidableEq, Repr

/-- How `Lock` ends, with the counter `_syncPrimitiveCodeCounter` after it; the reports made, in order, by the seconds they name; how deep the reports of those reports are.
For PosixThreadEngine.cpp 278-341. -/
structure Out where
  threw : Option Nat
  counter : Int
  reports : List Nat
  nested : Nat
deriving DecidableEq, Repr

mutual
/-- The loop, PosixThreadEngine.cpp 287-340; `full` is `lock_full_duration`. -/
def wait (counter : Int) (full : Nat) : Answer → Out
  | .got => ⟨.none, counter, [], 0⟩
  | .error c => ⟨some c, counter, [], 0⟩
  | .none => ⟨.none, counter, [], 0⟩
  | .both _ _ => ⟨.none, counter, [], 0⟩
  | .owned locks next =>
    if counter > 0 then
      ⟨(wait (counter + 1 - 1) (full + 3) next).threw, (wait (counter + 1 - 1) (full + 3) next).counter, (wait (counter + 1 - 1) (full + 3) next).reports, (wait (counter + 1 - 1) (full + 3) next).nested⟩
    else
      match (report (counter + 1) locks).threw with
      | some c => ⟨some c, (report (counter + 1) locks).counter - 1, [], (report (counter + 1) locks).reports.length + (report (counter + 1) locks).nested⟩
      | .none => ⟨(wait ((report (counter + 1) locks).counter - 1) (full + 3) next).threw, (wait ((report (counter + 1) locks).counter - 1) (full + 3) next).counter,
          (full + 3) :: (wait ((report (counter + 1) locks).counter - 1) (full + 3) next).reports,
          (report (counter + 1) locks).reports.length + (report (counter + 1) locks).nested + (wait ((report (counter + 1) locks).counter - 1) (full + 3) next).nested⟩

/-- The mutexes of a report, one after the other, PosixThreadEngine.cpp 316-335; each is locked like any other: `trylock` first, PosixThreadEngine.h 40-46. -/
def report (counter : Int) : Answer → Out
  | .got => ⟨.none, counter, [], 0⟩
  | .error c => ⟨some c, counter, [], 0⟩
  | .none => ⟨.none, counter, [], 0⟩
  | .owned _ next => wait counter 0 next
  | .both a b =>
    match (report counter a).threw with
    | some c => ⟨some c, (report counter a).counter, (report counter a).reports, (report counter a).nested⟩
    | .none => ⟨(report (report counter a).counter b).threw, (report (report counter a).counter b).counter, (report counter a).reports ++ (report (report counter a).counter b).reports,
        (report counter a).nested + (report (report counter a).counter b).nested⟩
end

/-- `Lock`, PosixThreadEngine.h 40-46 and PosixThreadEngine.cpp 280-281. -/
def lock (counter : Int) : Answer → Out
  | .got => ⟨.none, counter, [], 0⟩
  | .owned _ next => wait counter 0 next
  | .error c => ⟨some c, counter, [], 0⟩
  | _ => ⟨.none, counter, [], 0⟩

end Verif.Thread.MutexLock
