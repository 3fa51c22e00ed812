/-!
# Files called by an environment

Model of `Environment.call` (xtrack/environment.py:808-824) and `get_environment` (environment.py:3069-3078).
A file is a sequence of the commands which matter here; environments are numbers, and the global variable
`xtrack._passed_env` is part of the state.
-/

namespace Verif.Calls

/-- What is in a file. -/
inductive Script
  /-- the end of the file -/
  | done
  /-- `env = xt.get_environment()` -/
  | get (rest : Script)
  /-- `env[name] = …` -/
  | define (name : Nat) (rest : Script)
  /-- `env.call(file)`, within `try … except Exception: pass` or not -/
  | call (file : Script) (caught : Bool) (rest : Script)
  /-- something which raises an exception -/
  | fail
  /-- the user interrupts, which is no `Exception` -/
  | interrupt

/-- How a file ends. -/
inductive End
  | done
  | exc
  | interrupt
  deriving DecidableEq, Repr

/-- `xtrack._passed_env`, the number of the next new environment, and what has been defined where. -/
structure St where
  passed : Option Nat := none
  next : Nat := 0
  log : List (Nat × Nat) := []
  deriving DecidableEq, Repr

/-- `get_environment`: environment.py:3069-3078. -/
def getEnv (s : St) : Nat × St :=
  match s.passed with
  | some e => (e, s)
  | none => (s.next, { s with next := s.next + 1 })

/-- What `call` does after the file: environment.py:819-824. -/
def after (s : St) : End → St
  | .done => { s with passed := none }
  | .exc => { s with passed := none }
  | .interrupt => s

/-- A file is run; `env` is its variable of this name. -/
def run : Script → Option Nat → St → St × End
  | .done, _, s => (s, .done)
  | .get rest, _, s =>
    let r := getEnv s
    run rest (some r.1) r.2
  | .define n rest, env, s =>
    match env with
    | none => (s, .exc)
    | some e => run rest env { s with log := s.log ++ [(e, n)] }
  | .call file caught rest, env, s =>
    match env with
    | none => (s, .exc)
    | some e =>
      let r := run file none { s with passed := some e }
      let s := after r.1 r.2
      match r.2 with
      | .done => run rest env s
      | .exc => if caught then run rest env s else (s, .exc)
      | .interrupt => (s, .interrupt)
  | .fail, _, s => (s, .exc)
  | .interrupt, _, s => (s, .interrupt)

/-- `env.call(file)`: environment.py:808-824. -/
def call (e : Nat) (file : Script) (s : St) : St × End :=
  let r := run file none { s with passed := some e }
  (after r.1 r.2, r.2)

end Verif.Calls
