import Verif.Model.Utils
/-
Model of patchdd.c.
-/
namespace Csn

/-- patchdd.c:15-24 `memcmp_offset`, for two buffers of the same length `len`: the index of the first difference, or `len`. -/
def memcmpOffset : Bytes → Bytes → Nat
  | x :: a, y :: b => if x = y then memcmpOffset a b + 1 else 0
  | _, _ => 0

/-- patchdd.c:73-94: the copy loop from `offset` on.  `T` is TRANSFER_SIZE (1 MiB in the code).  The first argument bounds the
number of iterations; `diverge` is proved unreachable.  The last argument and the result (`none`: EXIT_FAILURE) are
`total_skipped`.  Progress display is left out. -/
def patchLoop (T src dst size : Nat) : Nat → Nat → Nat → M (Option Nat)
  | 0, offset, skipped => if offset < size then M.stop .diverge else return some skipped
  | fuel + 1, offset, skipped =>
    if offset < size then do
      let toRead := min (size - offset) T
      match ← preadall src offset toRead with
      | (false, _) => return none
      | (true, srcBuf) =>
        match ← preadall dst offset toRead with
        | (false, _) => return none
        | (true, dstBuf) =>
          let firstDiff := memcmpOffset srcBuf dstBuf
          if !(← pwriteall dst ((srcBuf.drop firstDiff).take (toRead - firstDiff)) (offset + firstDiff)) then return none
          patchLoop T src dst size fuel (offset + toRead) (skipped + firstDiff)
    else return some skipped

/-- patchdd.c:26-107 `main`; `args` is `argv[1..]`, the result tells EXIT_SUCCESS from EXIT_FAILURE.  Of the output only the
number of skipped bytes is modelled (the percentage computed at the end is a floating point division, which is harmless for an empty source). -/
def patchdd (T : Nat) (args : List Bytes) : M Bool :=
  match args with
  | a :: b :: _ =>
    if streq a (str "-h") || streq a (str "--help") then return false
    else do
      match ← openPath a with
      | none => return false
      | some src =>
        match ← openPath b with
        | none => return false
        | some dst =>
          match ← fdSize src with
          | none => return false
          | some srcSize =>
            match ← fdSize dst with
            | none => return false
            | some dstSize =>
              if dstSize < srcSize then return false
              else
                match ← patchLoop T src dst srcSize (srcSize + 1) 0 0 with
                | none => return false
                | some skipped =>
                  if !(← M.sysOk) then return false
                  else do
                    M.emit (.fsync dst)
                    M.emit (.skipped skipped)
                    return true
  | _ => return false

end Csn
