import Verif.Model.Main
/-
Model of main.c: the casync front end and the choice between the front ends.
-/
namespace Csn

/-- What getopt_long returns to the loop in main.c:236; the values of --store and --seed are used alike. -/
inductive Opt where
  | help
  | store (arg : Bytes)
  | seedOutput (arg : Bytes)
  | bad
  deriving DecidableEq, Repr

/-- The long options of main.c:197-203. -/
inductive Long where
  | help
  | store
  | seed
  | seedOutput
  deriving DecidableEq, Repr

/-- main.c:198-201 -/
def longOptions : List (Bytes × Long) :=
  [(str "help", .help), (str "store", .store), (str "seed", .seed), (str "seed-output", .seedOutput)]

/-- getopt_long(3) (not part of the repository): the option a name stands for, exactly or as unique abbreviation.  All
four options differ in what they return, so several matching abbreviations are an error. -/
def longMatch (name : Bytes) : Option Long :=
  match longOptions.find? (fun o => o.1 == name) with
  | some o => some o.2
  | none =>
    match longOptions.filter (fun o => startswith o.1 name) with
    | [o] => some o.2
    | _ => none

/-- The value of an option that needs one. -/
def Long.withArg : Long → Bytes → Opt
  | .help, _ => .bad
  | .store, v => .store v
  | .seed, v => .store v
  | .seedOutput, v => .seedOutput v

/-- getopt_long(3) on `argv[1..]`: the options in order (ending with the first one for which the loop ends) and the
arguments that are left.  `posix`: POSIXLY_CORRECT is set, which ends the options at the first other argument;
otherwise those are moved behind the options.  `want`: the option whose value comes next.  The only short option is -h;
of a group of short options only the first counts, as the loop ends with it in any case. -/
def getopt (posix : Bool) (want : Option Long) (non : List Bytes) : List Bytes → List Opt × List Bytes
  | [] => (if want.isSome then [.bad] else [], non)
  | a :: r =>
    match want with
    | some o =>
      let (os, rest) := getopt posix none non r
      (o.withArg a :: os, rest)
    | none =>
      if a = str "--" then ([], non ++ r)
      else if startswith a (str "--") then
        let body := a.drop 2
        let name := body.takeWhile (· != 0x3d)
        match longMatch name with
        | none => ([.bad], non ++ r)
        | some o =>
          if name.length < body.length then
            let (os, rest) := getopt posix none non r
            (o.withArg (body.drop (name.length + 1)) :: os, rest)
          else if o = .help then ([.help], non ++ r)
          else getopt posix (some o) non r
      else if startswith a (str "-") && a != str "-" then
        ([if (a.drop 1).head? = some 0x68 then .help else .bad], non ++ r)
      else if posix then ([], non ++ a :: r)
      else getopt posix none (non ++ [a]) r

/-- How the option loop (main.c:236-255) ends; the target may have become a store before --help. -/
inductive OptRes where
  | fail
  | help (t : Tgt)
  | done (t : Tgt) (c : Chain Store)
  deriving DecidableEq, Repr

/-- main.c:236-255.  That a ':' in a store argument is overwritten is not seen through other arguments. -/
def casyncOpts (env : Env) (tpath : Bytes) (n : Nat) (p : Params) : Tgt → Chain Store → List Opt → M OptRes
  | t, c, [] => return .done t c
  | t, _, .help :: _ => return .help t
  | t, c, .store a :: r => do
    match ← appendStore env tpath n p t c a with
    | (false, _, _) => return .fail
    | (true, t, c) => casyncOpts env tpath n p t c r
  | t, c, .seedOutput _ :: r => casyncOpts env tpath n p t c r
  | _, _, .bad :: _ => M.stop .exit

/-- What casync leaves behind: after --help the global `store` is still NULL. -/
inductive Started where
  | ready (s : Setup)
  | noStore (iino : Nat) (p : Params) (n : Nat) (t : Tgt)

/-- main.c:189-268 `casync` with arguments `argv[1..]`; `none` is -1. -/
def casync (env : Env) (posix : Bool) (args : List Bytes) : M (Option Started) :=
  let argc := args.length + 1
  if argc < 3 then M.stop .exit
  else do
    let ipath := args.getD (argc - 2 - 1) []
    let tpath := args.getD (argc - 1 - 1) []
    match ← openBoth ipath tpath with
    | none => return none
    | some (iino, p, n, t) =>
      match ← chainNew Store ((argc - 4) / 2 + 1) with
      | none => return none
      | some c =>
        let (os, rest) := getopt posix none [] args
        match ← casyncOpts env tpath n p t c os with
        | .fail => return none
        | .help t => return some (.noStore iino p n t)
        | .done t c =>
          if rest.length < 3 ∨ streq (rest.headD []) (str "extract") = false then M.stop .exit
          else return some (.ready ⟨iino, p, n, t, c⟩)

/-- main.c:32-84 `entry_cb` with `store` NULL: as long as the target matches the store is not used. -/
def entryCbNoStore (env : Env) (c : Tgt × Bytes) (e : Seg) : M (Bool × (Tgt × Bytes)) :=
  if e.len > c.2.length then return (false, c)
  else do
    let (r, tgt, buf) ← targetCheck env c.1 c.2 e.len e.off e.id
    if r = some true then return (true, (tgt, buf))
    else M.stop .ub

/-- main.c:305-317 with `store` NULL: `store_free` dereferences it (store.h:26).  The number of skipped chunks printed before
that is left out. -/
def syncNoStore (env : Env) (iino : Nat) (p : Params) (n : Nat) (t : Tgt) : M Bool := do
  match ← caibxIterate iino p n (entryCbNoStore env) (t, List.replicate env.bufMax 0) with
  | (false, _) => return false
  | (true, _) => M.stop .ub

/-- main.c:287-317 for the application name "casync". -/
def casyncMain (env : Env) (posix : Bool) (args : List Bytes) : M Bool := do
  match ← casync env posix args with
  | none => return false
  | some (.ready s) => sync env s
  | some (.noStore iino p n t) => syncNoStore env iino p n t

/-- basename(3), the version of libgen.h (not part of the repository): slashes at the end do not count. -/
def posixBasename (path : Bytes) : Bytes :=
  if path = [] then str "."
  else
    let s := (path.reverse.dropWhile (· == 0x2f)).reverse
    if s = [] then str "/" else (s.reverse.takeWhile (· != 0x2f)).reverse

/-- main.c:284-292: the front end is chosen by the name of the program. -/
def appMain (env : Env) (posix : Bool) (argv0 : Bytes) (args : List Bytes) : M Bool :=
  let appname := posixBasename argv0
  if streq appname (str "csn") then csnMain env args
  else if streq appname (str "casync") then casyncMain env posix args
  else return false

end Csn
