/-!
# Conditional compilation of `stabby-abi`

The items that exist in several versions selected by configuration options: the default allocator, the wakers, the registry of vtables and `IConstConstructor`; what
`stabby-abi/build.rs` adds to the options; and the errors rustc reports for these items.

Simplifications: only these items are represented, with the names they use of each other; the compiler's channel is stable or nightly; rustc's version is `1.minor`; feature
`std` is taken to have enabled `alloc-rs` (stabby-abi/Cargo.toml:31).
-/
namespace Verif.Build

/-- A predicate of `#[cfg(..)]`; `all` and `any` of more than two predicates are nested. -/
inductive Pred where
  /-- `name` -/
  | flag (name : String)
  /-- `name = "value"` -/
  | kv (name value : String)
  | not (p : Pred)
  | all (p q : Pred)
  | any (p q : Pred)

/-- The options given to rustc: `--cfg name` is `(name, none)`, `--cfg name="value"` is `(name, some value)`. -/
abbrev Options := List (String × Option String)

/-- rustc's meaning of predicates: a name alone holds if that option was given without a value. -/
def Pred.eval (o : Options) : Pred → Bool
  | .flag n => o.contains (n, none)
  | .kv n v => o.contains (n, some v)
  | .not p => !p.eval o
  | .all p q => p.eval o && q.eval o
  | .any p q => p.eval o || q.eval o

/-- What a build depends on. -/
structure Env where
  options : Options
  nightly : Bool
  minor : Nat

/-- Cargo sets `CARGO_CFG_NAME` for build scripts if the option was given in any form. -/
def cargoCfg (o : Options) (name : String) : Bool := o.any fun p => p.1 == name

/-- The end of `main` (stabby-abi/build.rs:128-136): the allocator is chosen by the features unless the option was given. -/
def build (e : Env) : Env :=
  if cargoCfg e.options "stabby_default_alloc" then e
  else if e.options.contains ("feature", some "alloc-rs") then { e with options := ("stabby_default_alloc", some "RustAlloc") :: e.options }
  else if e.options.contains ("feature", some "libc") then { e with options := ("stabby_default_alloc", some "LibcAlloc") :: e.options }
  else { e with options := ("stabby_default_alloc", some "disabled") :: e.options }

/-- An item of which there are several versions. -/
structure Version (α : Type) where
  impl : α
  cfg : Pred
  /-- the `rustversion` attribute, of the channel being nightly and the version -/
  rv : Bool → Nat → Bool

/-- The versions that are compiled. -/
def compiled {α : Type} (e : Env) (vs : List (Version α)) : List α :=
  (vs.filter fun v => v.cfg.eval e.options && v.rv e.nightly e.minor).map Version.impl

def always : Pred := .not (.all (.flag "") (.not (.flag "")))
def anyRustc (_ : Bool) (_ : Nat) : Bool := true
/-- `#[rustversion::nightly]` -/
def onNightly (nightly : Bool) (_ : Nat) : Bool := nightly
/-- `#[rustversion::before(1.78.0)]` -/
def before178 (_ : Bool) (minor : Nat) : Bool := decide (minor < 78)
/-- `#[rustversion::all(not(nightly), since(1.78.0))]` -/
def stableSince178 (nightly : Bool) (minor : Nat) : Bool := !nightly && decide (78 ≤ minor)

inductive Waker where
  /-- a reference to a `core::task::Waker` -/
  | direct
  /-- the waker with shims -/
  | shims
  deriving DecidableEq, Repr

/-- `mod stable_waker` (future.rs:23-49, 50-51). -/
def wakers : List (Version Waker) :=
  [⟨.direct, .kv "stabby_unsafe_wakers" "true", anyRustc⟩,
   ⟨.shims, .any (.not (.flag "stabby_unsafe_wakers")) (.kv "stabby_unsafe_wakers" "false"), anyRustc⟩]

inductive Alloc where
  | rust | libc | infallible
  deriving DecidableEq, Repr

/-- `DefaultAllocator` (alloc/allocators/mod.rs:13-38). -/
def defaultAllocs : List (Version Alloc) :=
  [⟨.rust, .kv "stabby_default_alloc" "RustAlloc", anyRustc⟩,
   ⟨.libc, .kv "stabby_default_alloc" "LibcAlloc", anyRustc⟩,
   ⟨.infallible, .kv "stabby_default_alloc" "disabled", anyRustc⟩]

/-- The allocators that can be named (alloc/allocators/mod.rs:1-11); `core::convert::Infallible` always can. -/
def allocs : List (Version Alloc) :=
  [⟨.libc, .all (.kv "feature" "libc") (.not (.kv "target_arch" "wasm32")), anyRustc⟩,
   ⟨.rust, .kv "feature" "alloc-rs", anyRustc⟩,
   ⟨.infallible, always, anyRustc⟩]

/-- `not(stabby_default_alloc = "disabled")` -/
def hasAlloc : Pred := .not (.kv "stabby_default_alloc" "disabled")

inductive Registry where
  | vec | btree
  deriving DecidableEq, Repr

/-- `internal::VTABLES` (vtable/mod.rs:202-213), in a module that exists with an allocator only (vtable/mod.rs:47-48). -/
def registries : List (Version Registry) :=
  [⟨.vec, .all hasAlloc (.kv "stabby_vtables" "vec"), stableSince178⟩,
   ⟨.btree, .all hasAlloc (.any (.kv "stabby_vtables" "btree") (.not (.flag "stabby_vtables"))), stableSince178⟩,
   ⟨.btree, .all hasAlloc (.kv "stabby_vtables" "btree"), onNightly⟩]

inductive Constructor where
  /-- the vtable is promoted to a static, as a provided constant -/
  | promoted
  /-- the vtable is promoted to a static by the macros -/
  | required
  /-- the vtable is interned in the registry -/
  | registry
  /-- the body of a provided method is `core::compile_error!` -/
  | refused
  deriving DecidableEq, Repr

/-- `any(stabby_vtables = "vec", stabby_vtables = "btree", not(stabby_vtables))` with an allocator (vtable/mod.rs:216-219). -/
def registryCfg : Pred :=
  .all hasAlloc (.any (.kv "stabby_vtables" "vec") (.any (.kv "stabby_vtables" "btree") (.not (.flag "stabby_vtables"))))

/-- `IConstConstructor` (vtable/mod.rs:18-30, 32-42, 216-231, 232-245). -/
def constructors : List (Version Constructor) :=
  [⟨.promoted, always, onNightly⟩,
   ⟨.required, always, before178⟩,
   ⟨.registry, registryCfg, stableSince178⟩,
   ⟨.refused, .not registryCfg, stableSince178⟩]

/-- What rustc may say about these items. -/
inductive Err where
  | definedTwice (name : String)
  | undefined (name : String)
  | compileError
  | noDefault
  deriving DecidableEq, Repr

/-- An item that must exist once. -/
def once {α : Type} (name : String) : List α → List Err
  | [] => [.undefined name]
  | [_] => []
  | _ :: _ :: _ => [.definedTwice name]

/-- An item nobody needs must not be defined twice either. -/
def atMostOnce {α : Type} (name : String) : List α → List Err
  | _ :: _ :: _ => [.definedTwice name]
  | _ => []

/-- The errors of compiling the crate, as far as these items go.
- `pub use stable_waker::StableWaker` (future.rs:22) needs one `stable_waker`;
- `DefaultAllocator` is used everywhere (alloc/mod.rs:54) and must be one of the allocators there are;
- the blanket implementation of `Future` calls `with_waker` of the default `StableWaker` (future.rs:189-191), which with shims needs a `Default` allocator
  (future.rs:127, 165): `RustAlloc` (rust_alloc.rs:98) and `LibcAlloc` (libc_alloc.rs:39) are, `Infallible` is not;
- `vtable()` uses the registry (vtable/mod.rs:227-230);
- `compile_error!` fails whenever it is compiled (vtable/mod.rs:244). -/
def errors (e : Env) : List Err :=
  once "stable_waker" (compiled e wakers) ++
  once "DefaultAllocator" (compiled e defaultAllocs) ++
  (if (compiled e defaultAllocs).all (compiled e allocs).contains then [] else [.undefined "allocator"]) ++
  (if (compiled e wakers).contains .shims && (compiled e defaultAllocs).contains .infallible then [.noDefault] else []) ++
  once "IConstConstructor" (compiled e constructors) ++
  (if (compiled e constructors).contains .registry then once "VTABLES" (compiled e registries)
    else atMostOnce "VTABLES" (compiled e registries)) ++
  (if (compiled e constructors).contains .refused then [.compileError] else [])

end Verif.Build
