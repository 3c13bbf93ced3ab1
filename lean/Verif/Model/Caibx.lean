import Verif.Model.Chunker
/-
Model of caibx.c.
-/
namespace Csn

/-- caibx.c:15-17. -/
def caFormatIndex : Nat := 0x96824d9c7b129ff9
def caFormatTable : Nat := 0xe75b9e112f17417d
def caFormatTableTail : Nat := 0x4b4f050e5549ecd1

/-- caibx.c:25-38 `load_section_header` at descriptor position `pos`: (magic, len). -/
def loadSectionHeader (ino pos : Nat) : M (Option (Nat × Nat)) := do
  match ← readall ino pos 16 with
  | (false, _) => return none
  | (true, buf) =>
    let len ← ld64le buf 0
    let magic ← ld64le buf 8
    return some (magic, len)

/-- caibx.c:40-81 `load_index_header`, descriptor at position 0.  `params_out` is never NULL
in this program. -/
def loadIndexHeader (ino : Nat) : M (Option Params) := do
  match ← loadSectionHeader ino 0 with
  | none => return none
  | some (magic, len) =>
    if magic ≠ caFormatIndex then return none
    else if len < 0x30 then return none
    else match ← readall ino 16 32 with
    | (false, _) => return none
    | (true, buf) =>
      let flags ← ld64le buf 0
      if flags &&& (2 ^ 64 - 1 - 0xd000000000000000) ≠ 0 then return none
      else
        let min ← ld64le buf 8
        let avg ← ld64le buf 16
        let max ← ld64le buf 24
        return paramsSet min avg max

/-- caibx.c:83-101 `validate_table_header`, descriptor at position 48; an unexpected table
length only warns (97). -/
def validateTableHeader (ino : Nat) : M Bool := do
  match ← loadSectionHeader ino 48 with
  | none => return false
  | some (magic, _) => return decide (magic = caFormatTable)

/-- caibx.c:103-148 `validate_table_footer`. -/
def validateTableFooter (ino n : Nat) : M Bool := do
  if !(← lseek (0x30 + 16 + n * 40)) then return false
  match ← readall ino (0x30 + 16 + n * 40) 40 with
  | (false, _) => return false
  | (true, buf) =>
    if (← ld64le buf 0) ≠ 0 then return false
    if (← ld64le buf 8) ≠ 0 then return false
    if (← ld64le buf 16) ≠ 0x30 then return false
    if (← ld64le buf 24) ≠ 16 + (n + 1) * 40 then return false
    return decide ((← ld64le buf 32) = caFormatTableTail)

/-- caibx.c:150-182 `caibx_load_header`. -/
def caibxLoadHeader (ino : Nat) : M (Option (Params × Nat)) := do
  match ← fdSize ino with
  | none => return none
  | some size =>
    if size < 0x30 + 56 then return none
    else if (size - 0x30 - 56) % 40 ≠ 0 then return none
    else
      let n := (size - 0x30 - 56) / 40
      if !(← lseek 0) then return none
      match ← loadIndexHeader ino with
      | none => return none
      | some p =>
        if !(← validateTableHeader ino) then return none
        if !(← validateTableFooter ino n) then return none
        return some (p, n)

/-- caibx.c:196-237: the entry loop.  `rem` entries are left, the descriptor is at `pos`,
`last` is `last_offset`.  `len` is computed modulo 2^64 (205); only entries with
`len > params->max_size` reach the UINT32_MAX test (215, 227).  The callback has state `σ`
and returns `false` for -1.  The ID pointer is formed before the tests only in the model. -/
def iterLoop {σ : Type} (ino : Nat) (p : Params) (cb : σ → Seg → M (Bool × σ)) :
    Nat → Nat → Nat → σ → M (Bool × σ)
  | 0, _, _, s => M.pure (true, s)
  | rem + 1, pos, last, s => do
    match ← readall ino pos 40 with
    | (false, _) => return (false, s)
    | (true, buf) =>
      let offset ← ld64le buf 0
      let id ← ldBytes buf 8 32
      let len := (offset + 2 ^ 64 - last) % 2 ^ 64
      if ¬ (len < p.min ∧ 0 < rem) ∧ len > p.max ∧ len > 2 ^ 32 - 1 then
        iterLoop ino p cb rem (pos + 40) last s
      else
        match ← cb s ⟨last, len % 2 ^ 32, id⟩ with
        | (false, s') => return (false, s')
        | (true, s') => iterLoop ino p cb rem (pos + 40) offset s'

/-- caibx.c:184-240 `caibx_iterate_entries`. -/
def caibxIterate {σ : Type} (ino : Nat) (p : Params) (n : Nat) (cb : σ → Seg → M (Bool × σ)) (s : σ) :
    M (Bool × σ) := do
  if !(← lseek (0x30 + 16)) then return (false, s)
  iterLoop ino p cb n (0x30 + 16) 0 s

end Csn
