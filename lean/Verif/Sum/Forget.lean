import Verif.Sum.Model

/-! Guards of results that are not dropped: `core::mem::forget` is a safe function. -/
namespace Verif.Sum
open Verif.Layout

/-- Writing through `&mut *OkGuard` (result.rs:505-507), then `core::mem::forget` of the guard: its `drop` (result.rs:514-518) does not run. -/
def okForget (ok err : Lay) (m src : Mem) : Mem := m.write (okOffset ok err) ok.size src
/-- The same with `ErrGuard` (result.rs:548-550, 557-561). -/
def errForget (ok err : Lay) (m src : Mem) : Mem := m.write (errOffset ok err) err.size src

end Verif.Sum
