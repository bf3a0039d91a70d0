import Verif.MaqModel

/-!
# Model of the integration statistics (src/maq.h:88-108, src/maq.cpp:26-41, 558-559, 602-611, 626-649, 714-726, 747-760)

Several `MAQ` calls may run at the same time (from OpenMP loops, or nested: an integrand may integrate).  Each call
is the list of its accesses to the shared counters, in program order; every access is one step, and steps of
different calls interleave freely.  The comparisons with the recorded maxima (lines 604, 747) are outside the critical
sections, so the test and the assignment are two steps.  Formally such an unprotected read is a C++ data race; the
model gives it the value last written.  The four settings copied into the structure by
`get_statistics` are in `TallyModel`.
-/

namespace Slat.Stats

/-- The counters of `IntegrationStats` (src/maq.h:96-107). -/
structure Counters where
  maxInt : ℕ
  intFails : ℕ
  totalInt : ℕ
  maxSearch : ℕ
  searchFails : ℕ
  totalSearch : ℕ
  calls : ℕ
  successes : ℕ
  nans : ℕ
deriving DecidableEq

/-- `reset_statistics` (src/maq.cpp:28-41); also the zero initialisation of the static variable (line 26). -/
def reset : Counters := ⟨0, 0, 0, 0, 0, 0, 0, 0, 0⟩

/-- `++` on `unsigned int`. -/
def inc32 (n : ℕ) : ℕ := (n + 1) % 2 ^ 32

/-- `+=` on `unsigned long`. -/
def add64 (n k : ℕ) : ℕ := (n + k) % 2 ^ 64

/-- Accesses to the shared counters. -/
inductive Act where
  /-- src/maq.cpp:559 -/
  | incCalls
  /-- src/maq.cpp:603 -/
  | addSearch (n : ℕ)
  /-- src/maq.cpp:604 -/
  | testSearch (n : ℕ)
  /-- src/maq.cpp:606 -/
  | setSearch (n : ℕ)
  /-- src/maq.cpp:610 -/
  | incSearchFails
  /-- src/maq.cpp:627, 636, 647, 715, 724 -/
  | incNans
  /-- src/maq.cpp:629, 638, 649, 717, 726, 760 -/
  | addInt (n : ℕ)
  /-- src/maq.cpp:747 -/
  | testInt (n : ℕ)
  /-- src/maq.cpp:749 -/
  | setInt (n : ℕ)
  /-- src/maq.cpp:753 -/
  | incSuccesses
  /-- src/maq.cpp:756 -/
  | incIntFails
deriving DecidableEq

/-- The effect of an access, and the accesses it inserts before the rest of the call (the assignment guarded by a
test that came out true). -/
def act (s : Counters) : Act → Counters × List Act
  | .incCalls => ({ s with calls := inc32 s.calls }, [])
  | .addSearch n => ({ s with totalSearch := add64 s.totalSearch n }, [])
  | .testSearch n => (s, if s.maxSearch < n then [.setSearch n] else [])
  | .setSearch n => ({ s with maxSearch := n }, [])
  | .incSearchFails => ({ s with searchFails := inc32 s.searchFails }, [])
  | .incNans => ({ s with nans := inc32 s.nans }, [])
  | .addInt n => ({ s with totalInt := add64 s.totalInt n }, [])
  | .testInt n => (s, if s.maxInt < n then [.setInt n] else [])
  | .setInt n => ({ s with maxInt := n }, [])
  | .incSuccesses => ({ s with successes := inc32 s.successes }, [])
  | .incIntFails => ({ s with intFails := inc32 s.intFails }, [])

/-- How one `MAQ` call goes: `n` evaluations reported by the search, `c` by the integration.  The integrand may throw
in either phase, which ends the call there. -/
inductive Call where
  | searchThrows
  | searchFail (n : ℕ)
  | integrationThrows (n : ℕ)
  | nan (n c : ℕ)
  | success (n c : ℕ)
  | fail (n c : ℕ)
deriving DecidableEq

/-- The accesses of a call in program order (src/maq.cpp:558-762). -/
def program : Call → List Act
  | .searchThrows => [.incCalls]
  | .searchFail n => [.incCalls, .addSearch n, .testSearch n, .incSearchFails]
  | .integrationThrows n => [.incCalls, .addSearch n, .testSearch n]
  | .nan n c => [.incCalls, .addSearch n, .testSearch n, .incNans, .addInt c]
  | .success n c => [.incCalls, .addSearch n, .testSearch n, .testInt c, .incSuccesses, .addInt c]
  | .fail n c => [.incCalls, .addSearch n, .testSearch n, .testInt c, .incIntFails, .addInt c]

/-- How a call goes, from what the search found and what `MAQ` did (`Maq.maq`). -/
def callOf (r : Maq.SearchResult) (rep : Maq.Report) : Call :=
  match rep.outcome with
  | .searchFail => .searchFail r.evals
  | .nan => .nan r.evals rep.result.evals
  | .success => .success r.evals rep.result.evals
  | .integrationFail => .fail r.evals rep.result.evals

/-- The counters and, for every call started, what it has still to do. -/
structure State where
  counters : Counters
  running : List (List Act)
deriving DecidableEq

/-- After a reset, no call running. -/
def init : State := ⟨reset, []⟩

/-- What can happen: a call starts, or the `i`-th call makes its next access. -/
inductive Ev where
  | start (c : Call)
  | step (i : ℕ)

/-- One event (a step of a finished or unknown call does nothing). -/
def next (σ : State) : Ev → State
  | .start c => { σ with running := σ.running ++ [program c] }
  | .step i =>
    match σ.running[i]? with
    | some (a :: rest) =>
      let r := act σ.counters a
      ⟨r.1, σ.running.set i (r.2 ++ rest)⟩
    | _ => σ

/-- A schedule from a reset. -/
def run (evs : List Ev) : State := evs.foldl next init

end Slat.Stats
