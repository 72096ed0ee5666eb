import Verif.Model.Out
/-!
# Model of the archive options (zpp_bits.h:653-730, 1059-1172, 1852-1923, 2021-2040, 2439-2441, 2512-2530)
-/

namespace Zpp

/-- The options (zpp_bits.h:1073-1172, 1852-1858). `size` covers `no_size`, `size1b`, `size2b`, `size4b`,
`size8b`, `size_native` and `size_varint`. -/
inductive Opt
  | append
  | reserve (n : Nat)
  | resize (n : Nat)
  | allocLimit (n : Nat)
  | enlarger (m d : Nat)
  | endian (e : Endian)
  | noFitSize
  | noEnlargeOverflow
  | enlargeOverflow
  | size (s : SizeTy)
deriving DecidableEq, Repr

/-- `get_default_size_type(options...)` (zpp_bits.h:653-680); the default is `default_size_type`, a
`std::uint32_t` (zpp_bits.h:68). -/
def getDefaultSizeType : List Opt → SizeTy
  | [] => .fixed 4
  | o :: os =>
    match o with
    | .size s => s
    | _ => getDefaultSizeType os

/-- `alloc_limit<Options...>()` (zpp_bits.h:682-705). -/
def getAllocLimit : List Opt → Nat
  | [] => sizeMax
  | o :: os =>
    match o with
    | .allocLimit n => n
    | _ => getAllocLimit os

/-- `enlarger<Options...>()` (zpp_bits.h:707-730). -/
def getEnlarger : List Opt → Nat × Nat
  | [] => (3, 2)
  | o :: os =>
    match o with
    | .enlarger m d => (m, d)
    | _ => getEnlarger os

/-- `endian_aware` (zpp_bits.h:1889-1891, 2512-2514): some option is `endian::swapped`. -/
def endianAware (host : Endian) : List Opt → Bool
  | [] => false
  | o :: os => decide (o = .endian host.swap) || endianAware host os

/-- `no_enlarge_overflow` (zpp_bits.h:1899-1901). -/
def noEnlargeOverflow : List Opt → Bool
  | [] => false
  | o :: os => decide (o = .noEnlargeOverflow) || noEnlargeOverflow os

/-- `no_fit_size` (zpp_bits.h:2439-2441). -/
def noFitSize : List Opt → Bool
  | [] => false
  | o :: os => decide (o = .noFitSize) || noFitSize os

/-- What the environment fixes: host byte order, capacity, ABI, class definitions, comparators. -/
structure Host where
  order : Endian
  maxMem : Nat
  sizeof : Ty → Nat
  env : Nat → Ty
  keyLt : Ty → Val → Val → Bool

/-- Static members of `basic_out<ByteView, Options...>` (zpp_bits.h:1889-1906) and, as far as they exist
there, of `in<ByteView, Options...>` (2512-2519). -/
def cfgOf (h : Host) (resizable : Bool) (opts : List Opt) : Cfg :=
  { host := h.order
    aware := endianAware h.order opts
    dsz := getDefaultSizeType opts
    g := { resizable := resizable
           mul := (getEnlarger opts).1
           div := (getEnlarger opts).2
           limit := getAllocLimit opts
           noOvf := noEnlargeOverflow opts
           maxMem := h.maxMem }
    sizeof := h.sizeof
    env := h.env
    keyLt := h.keyLt }

/-- `archive.option(o)` of an output archive (zpp_bits.h:2021-2040, 1063-1070). `append`, `reserve` and
`resize` do not compile for a fixed buffer (`static_assert`); other options have no effect at run time.
`reserve` has no effect on the content. -/
def applyOpt (g : Growth) (o : Opt) : OutM := fun st =>
  match o with
  | .append => if g.resizable then (.ok, { st with pos := st.data.length }) else (.illFormed, st)
  | .reserve n =>
    if g.resizable then (if g.maxMem < n then (.badAlloc, st) else (.ok, st)) else (.illFormed, st)
  | .resize n =>
    if g.resizable then
      if g.maxMem < n then (.badAlloc, st)
      else (.ok, ⟨resizeBytes st.data n, if n < st.pos then n else st.pos⟩)
    else (.illFormed, st)
  | _ => (.ok, st)

/-- The options of the constructor, in order. -/
def applyOpts (g : Growth) : List Opt → OutM
  | [] => OutM.skip
  | o :: os => (applyOpt g o).andThen (applyOpts g os)

/-- Constructor of an output archive over a buffer (zpp_bits.h:1914-1923, `m_position{}` 2421). -/
def openOut (h : Host) (resizable : Bool) (opts : List Opt) (data : List UInt8) : Status × OutSt :=
  applyOpts (cfgOf h resizable opts).g opts ⟨data, 0⟩

end Zpp
