import Verif.Model.Map
/-
`Options<T>` for any `T: FromPtr`: what `map_if`, `map`, `open`, `open_if` and `alloc` return is made by
`T::from_ptr`.  Model/Map.lean is the case `T = MapMut`; C126 (Props/FromPtr.lean) ties the two
together and treats `T = Map`.
-/
namespace Vmap

/-- `map[i]` through `Deref` — src/map.rs:158-165 and std's bounds check. -/
def Map.get (k : Kernel) (m : Map) (i : Nat) : Exec Byte :=
  if i < m.inner.len then k.load (m.inner.ptr + i) else .error .panic

namespace Options
variable {α : Type}

/-- `Options::<T>::map_if`, mapping; `make` is `T::from_ptr` — src/map.rs:1199-1214. -/
def mapStepAs (make : Nat → Nat → α) (t : Target) (k : Kernel) (o : Options) (fd flen : Nat) :
    Exec (Kernel × Result (Option α)) := do
  let off := o.offset
  if flen < off then return (k, .ok none)
  else
    let max ← subU t flen off
    match mapLen o.len max with
    | none => return (k, .ok none)
    | some len =>
      let mapoff ← (Size.alloc k).truncate t off
      let d ← subU t off mapoff
      let maplen ← addU t len d
      match Unix.mapFile t k fd mapoff maplen o.protect with
      | (k, .error e) => return (k, .error e)
      | (k, .ok ptr) => return (k, .ok (some (make (ptrAdd t ptr d) len)))

/-- `Options::<T>::map_if` — src/map.rs:1182-1215. -/
def mapIfAs (make : Nat → Nat → α) (tab : SysTable) (t : Target) (k : Kernel) (o : Options) (fd : Nat) :
    Exec (Kernel × Result (Option α)) :=
  match File.len tab k fd with
  | (k, .error e) => return (k, .error (mapFileErr e))
  | (k, .ok n) =>
    match truncateStep tab k o fd (asUsize t n) with
    | (k, .error e) => return (k, .error e)
    | (k, .ok flen) =>
      match resizeStep tab k o fd flen with
      | (k, .error e) => return (k, .error e)
      | (k, .ok flen) => mapStepAs make t k o fd flen

/-- `Options::<T>::map` — src/map.rs:1143-1146. -/
def mapAs (make : Nat → Nat → α) (tab : SysTable) (t : Target) (k : Kernel) (o : Options) (fd : Nat) :
    Exec (Kernel × Result α) := do
  match ← o.mapIfAs make tab t k fd with
  | (k, .error e) => return (k, .error e)
  | (k, .ok none) => return (k, .error (Error.input .mapFile .invalidRange))
  | (k, .ok (some m)) => return (k, .ok m)

/-- `Options::<T>::open` — src/map.rs:1067-1070. -/
def openAs (make : Nat → Nat → α) (tab : SysTable) (t : Target) (k : Kernel) (o : Options) (path : String) :
    Exec (Kernel × Result (α × Nat)) :=
  match o.openOptions.open tab k path with
  | (k, .error e) => return (k, .error (mapFileErr e))
  | (k, .ok fd) => do
    match ← o.mapAs make tab t k fd with
    | (k, .error e) => return (k.close fd, .error e)
    | (k, .ok m) => return (k, .ok (m, fd))

/-- `Options::<T>::open_if` — src/map.rs:1108-1111. -/
def openIfAs (make : Nat → Nat → α) (tab : SysTable) (t : Target) (k : Kernel) (o : Options) (path : String) :
    Exec (Kernel × Result (Option α × Nat)) :=
  match o.openOptions.open tab k path with
  | (k, .error e) => return (k, .error (mapFileErr e))
  | (k, .ok fd) => do
    match ← o.mapIfAs make tab t k fd with
    | (k, .error e) => return (k.close fd, .error e)
    | (k, .ok m) => return (k, .ok (m, fd))

/-- `Options::<T>::alloc` — src/map.rs:1230-1240. -/
def allocAs (make : Nat → Nat → α) (t : Target) (k : Kernel) (o : Options) : Exec (Kernel × Result α) := do
  let off ← (Size.page k).offset t o.offset
  let len ← allocLen t k o.len off
  let n ← addU t off len
  match Unix.mapAnon t k n o.protect with
  | (k, .error e) => return (k, .error e)
  | (k, .ok ptr) => return (k, .ok (make (ptrAdd t ptr off) len))

end Options
end Vmap
