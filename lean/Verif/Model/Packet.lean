import Verif.Model.AxisMulti
import Verif.Model.MultiDim
import Verif.Model.Common

/-!
# `_wavelet_packets.py`

A packet tree is a map from paths to nodes: `t p` is the node reached from the root by the attribute
chain `p`, if it exists.  A path is the list of its tokens: characters for `WaveletPacket` and
`WaveletPacket2D`, strings of `PART_LEN` characters for `WaveletPacketND`.

Every method returns its result or exception *together with the tree it leaves behind*, because a
method that raises may have changed the tree before.

Not modelled: references to nodes that were removed from the tree by a later `decompose`, assignment or
`del`; packets created with `data=None` and `maxlevel=None`; dtypes; `walk`, `walk_depth` with arbitrary
callbacks; pickling of `WaveletPacketND` (the default of Python, which stores every attribute).
-/

namespace Pywt

/-- `get_graycode_order`, `pywt/_wavelet_packets.py` L22-27: `graycode n` is the list after `n`
iterations of the loop.  Words are lists of letters. -/
def graycode {α : Type} (x y : α) : Nat → List (List α)
  | 0 => [[x], [y]]
  | n + 1 => (graycode x y n).map (x :: ·) ++ (graycode x y n).reverse.map (y :: ·)

/-- `get_graycode_order(level, x, y)`, `pywt/_wavelet_packets.py` L22-27; `range(level - 1)` is empty
for `level < 1`. -/
def getGraycodeOrder {α : Type} (level : Int) (x y : α) : List (List α) := graycode x y (level - 1).toNat

/-- The attributes `data` and `_data_shape` of a node (`BaseNode.__init__`,
`pywt/_wavelet_packets.py` L58-83). -/
structure PNode (D : Type) where
  data : Option D
  shape : Option (List Nat)
  deriving DecidableEq

/-- The tree of nodes. -/
abbrev PTree (P D : Type) := List P → Option (PNode D)

/-- What differs between the three packet classes, and the attributes fixed when the root is created. -/
structure PKind (P D : Type) where
  /-- `PARTS` -/
  parts : List P
  /-- `data.shape` -/
  shapeOf : D → List Nat
  /-- `dwt`, `dwt2`, `dwtn` in `_decompose` -/
  dec : D → Py (P → D)
  /-- `idwt`, `idwt2`, `idwtn` in `_reconstruct`, with its check for missing data -/
  recon : (P → Option D) → Py D
  /-- `rec[tuple([slice(sz) for sz in self._data_shape])]` in `_reconstruct`; `NodeND` does not trim -/
  cut : List Nat → D → Py D
  /-- `Node._decompose` leaves existing subnodes of an empty node alone -/
  keeps : Bool
  /-- `maxlevel`: given, or computed by `__init__` of the root, and passed on to the subnodes -/
  maxlevel : Int
  /-- `data_size` of the root -/
  size : Option (List Nat)

namespace PKind

variable {P D : Type} [DecidableEq P] (k : PKind P D)

/-- `BaseNode.__init__`, `pywt/_wavelet_packets.py` L76-81. -/
def node (data : Option D) : PNode D := ⟨data, data.map k.shapeOf⟩

/-- `_create_subnode(part, data)` with `overwrite=True`, `pywt/_wavelet_packets.py` L92-99: the new
node replaces an existing one and has no subnodes. -/
def create (t : PTree P D) (p : List P) (q : P) (data : Option D) : PTree P D := fun r =>
  if r = p ++ [q] then some (k.node data) else if (p ++ [q]) <+: r then none else t r

/-- The calls of `_create_subnode` in `_decompose` (L437-447, L499-503, L637-638). -/
def createAll (t : PTree P D) (p : List P) (f : P → Option D) : List P → PTree P D
  | [] => t
  | q :: qs => createAll (k.create t p q (f q)) p f qs

/-- The calls for an empty node in `Node._decompose` (L437-442). -/
def createMissing (t : PTree P D) (p : List P) : List P → PTree P D
  | [] => t
  | q :: qs => createMissing (if (t (p ++ [q])).isSome then t else k.create t p q none) p qs

/-- `decompose`, `pywt/_wavelet_packets.py` L170-187, with `_decompose` L430-447, L484-504, L627-639.
A node that does not exist cannot be asked (`AttributeError`). -/
def decompose (t : PTree P D) (p : List P) : Py Unit × PTree P D :=
  if (p.length : Int) < k.maxlevel then
    match t p with
    | none => (.error .attr, t)
    | some nd =>
      match nd.data with
      | none =>
          (.ok (), if k.keeps then k.createMissing t p k.parts else k.createAll t p (fun _ => none) k.parts)
      | some d =>
        match k.dec d with
        | .error e => (.error e, t)
        | .ok c => (.ok (), k.createAll t p (fun q => some (c q)) k.parts)
  else (.error .value, t)

/-- `get_subnode`, `pywt/_wavelet_packets.py` L213-232; the result is the path of the subnode, if it
exists. -/
def getSubnode (t : PTree P D) (p : List P) (part : P) (decompose : Bool) :
    Py (Option (List P)) × PTree P D :=
  if part ∉ k.parts then (.error .value, t)
  else if (t (p ++ [part])).isSome then (.ok (some (p ++ [part])), t)
  else if decompose && ((t p).bind (·.data)).isSome then
    match k.decompose t p with
    | (.error e, t') => (.error e, t')
    | (.ok _, t') => (.ok (if (t' (p ++ [part])).isSome then some (p ++ [part]) else none), t')
  else (.ok none, t)

/-- `__getitem__`, `pywt/_wavelet_packets.py` L234-268, of the node at `p`; the result is the path of
the node found.  Indexing `None` is a `TypeError`. -/
def getItem (t : PTree P D) (p : List P) : List P → Py (List P) × PTree P D
  | [] => if 0 > k.maxlevel then (.error .index, t) else (.ok p, t)
  | q :: qs =>
    if ((q :: qs).length : Int) > k.maxlevel then (.error .index, t)
    else
      match k.getSubnode t p q true with
      | (.error e, t') => (.error e, t')
      | (.ok none, t') => (.error .type, t')
      | (.ok (some p'), t') => getItem t' p' qs

/-- `__setitem__`, `pywt/_wavelet_packets.py` L270-305, of the node at `p`, for array data. -/
def setItem (t : PTree P D) (p : List P) (data : D) : List P → Py Unit × PTree P D
  | [] =>
    if (p.length : Int) > k.maxlevel then (.error .index, t)
    else
      match t p with
      | none => (.error .attr, t)
      | some nd => (.ok (), fun r => if r = p then some ⟨some data, nd.shape⟩ else t r)
  | q :: qs =>
    if ((p.length + (q :: qs).length : Nat) : Int) > k.maxlevel then (.error .index, t)
    else
      match k.getSubnode t p q false with
      | (.error e, t') => (.error e, t')
      | (.ok none, t') => setItem (k.create t' p q none) (p ++ [q]) data qs
      | (.ok (some _), t') => setItem t' (p ++ [q]) data qs

/-- `__delitem__`, `pywt/_wavelet_packets.py` L307-325, of the root. -/
def delItem (t : PTree P D) (path : List P) : Py Unit × PTree P D :=
  match k.getItem t [] path with
  | (.error e, t') => (.error e, t')
  | (.ok _, t') => (.ok (), if path = [] then t' else fun r => if path <+: r then none else t' r)

/-- `has_any_subnode`, `pywt/_wavelet_packets.py` L331-333. -/
def hasAny (t : PTree P D) (p : List P) : Bool := k.parts.any fun q => (t (p ++ [q])).isSome

/-- One result after another: the loop over `PARTS` in `walk`. -/
def forParts (f : PTree P D → P → Py (List (List P)) × PTree P D) :
    List P → PTree P D → Py (List (List P)) × PTree P D
  | [], t => (.ok [], t)
  | q :: qs, t =>
    match f t q with
    | (.error e, t') => (.error e, t')
    | (.ok l, t') =>
      match forParts f qs t' with
      | (.error e, t'') => (.error e, t'')
      | (.ok l', t'') => (.ok (l ++ l'), t'')

/-- `walk`, `pywt/_wavelet_packets.py` L357-382, for the two callbacks of the library, which collect a
node exactly when they return `False` (`stop`).  The fuel bounds the depth. -/
def walk (stop : PTree P D → List P → Bool) (decompose : Bool) :
    Nat → List P → PTree P D → Py (List (List P)) × PTree P D
  | 0, _, t => (.error (.c .fuel), t)
  | n + 1, p, t =>
    if stop t p then (.ok [p], t)
    else if (p.length : Int) < k.maxlevel then
      forParts (fun t q =>
        match k.getSubnode t p q decompose with
        | (.error e, t') => (.error e, t')
        | (.ok none, t') => (.ok [], t')
        | (.ok (some p'), t') => walk stop decompose n p' t') k.parts t
    else (.ok [], t)

/-- Enough fuel for a walk from the root. -/
def fuel : Nat := k.maxlevel.toNat + 1

/-- `get_level(level, order='natural', decompose)`, `pywt/_wavelet_packets.py` L770-786. -/
def getLevel (t : PTree P D) (level : Int) (decompose : Bool) : Py (List (List P)) × PTree P D :=
  if level > k.maxlevel then (.error .value, t)
  else k.walk (fun _ p => decide ((p.length : Int) = level)) decompose k.fuel [] t

/-- `[result[path] for path in graycode_order if path in result]` in `WaveletPacket.get_level` with
`order='freq'`, `pywt/_wavelet_packets.py` L790-793. -/
def getLevelFreq (x y : P) (t : PTree P D) (level : Int) (decompose : Bool) :
    Py (List (List P)) × PTree P D :=
  match k.getLevel t level decompose with
  | (.error e, t') => (.error e, t')
  | (.ok l, t') => (.ok ((getGraycodeOrder level x y).filter fun p => decide (p ∈ l)), t')

/-- `get_leaf_nodes(decompose)`, `pywt/_wavelet_packets.py` L335-355. -/
def getLeafNodes (t : PTree P D) (decompose : Bool) : Py (List (List P)) × PTree P D :=
  k.walk (fun t p =>
    (decide ((p.length : Int) = k.maxlevel) && ((t p).bind (·.data)).isSome) ||
      (!decompose && !k.hasAny t p)) decompose k.fuel [] t

/-- The data of the subnodes in `_reconstruct` (L449-456, L506-521, L641-649). -/
def gather (f : P → Py (Option D)) : List P → Py (P → Option D)
  | [] => .ok fun _ => none
  | q :: qs => do
      let d ← f q
      let g ← gather f qs
      pure fun r => if r = q then d else g r

/-- `reconstruct(update=False)` of a node, `pywt/_wavelet_packets.py` L192-208, with `_reconstruct`
L449-471, L506-538, L641-663.  The result `none` is `None`.  (`Node2D` visits its subnodes in another
order; this can only change which of several exceptions is raised.) -/
def reconstruct (t : PTree P D) : Nat → List P → Py (Option D)
  | 0, _ => .error (.c .fuel)
  | n + 1, p =>
    match t p with
    | none => .error .attr
    | some nd =>
      if !k.hasAny t p then .ok nd.data
      else do
        let kids ← gather (fun q =>
          if (t (p ++ [q])).isSome then reconstruct t n (p ++ [q]) else .ok none) k.parts
        let r ← k.recon kids
        match nd.shape with
        | none => pure (some r)
        | some s => if k.shapeOf r ≠ s then do pure (some (← k.cut s r)) else pure (some r)

/-- `self.data = rec` -/
def setData (t : PTree P D) (p : List P) (r : Option D) : PTree P D := fun q =>
  if q = p then (t p).map fun nd => ⟨r, nd.shape⟩ else t q

/-- `node.reconstruct(update)` for a node other than the root, `pywt/_wavelet_packets.py` L192-208. -/
def reconstructNode (t : PTree P D) (p : List P) (update : Bool) : Py (Option D) × PTree P D :=
  match k.reconstruct t k.fuel p with
  | .error e => (.error e, t)
  | .ok r => (.ok r, if k.hasAny t p && update then setData t p r else t)

/-- `reconstruct` of the root, `pywt/_wavelet_packets.py` L729-746, L864-881, L1011-1028.  The index
`[[slice(sz) ...]]` is a list, which NumPy (1.23 or later, as required by `pyproject.toml`) rejects with
`IndexError`; the data has been replaced by then. -/
def reconstructRoot (t : PTree P D) (update : Bool) : Py (Option D) × PTree P D :=
  if k.hasAny t [] then
    match k.reconstructNode t [] update with
    | (.error e, t') => (.error e, t')
    | (.ok none, t') => (.error .attr, t')
    | (.ok (some r), t') =>
        match k.size with
        | some s => if k.shapeOf r ≠ s then (.error .index, t')
                    else (.ok (some r), if update then setData t' [] (some r) else t')
        | none => (.ok (some r), if update then setData t' [] (some r) else t')
  else (.ok ((t []).bind (·.data)), t)

/-- The tree of a new packet. -/
def init (data : Option D) : PTree P D := fun r => if r = [] then some (k.node data) else none

/-- `wp[path].data` -/
def fetch (t : PTree P D) (path : List P) : Py (Option D) × PTree P D :=
  match k.getItem t [] path with
  | (.error e, t') => (.error e, t')
  | (.ok p, t') => (.ok ((t' p).bind (·.data)), t')

end PKind

/-- What a user can do with a packet. -/
inductive POp (P D : Type)
  | get (path : List P)
  | decompose (path : List P)
  | getLevel (level : Int) (decompose : Bool)
  | getLeafNodes (decompose : Bool)
  | reconstruct (path : List P) (update : Bool)
  | set (path : List P) (data : D)
  | del (path : List P)

/-- The tree after `wp[path]`, `wp[path].decompose()`, `wp.get_level(..)`, `wp.get_leaf_nodes(..)`,
`wp[path].reconstruct(update)`, `wp[path] = data`, `del wp[path]`; exceptions are caught. -/
def PKind.exec {P D : Type} [DecidableEq P] (k : PKind P D) (t : PTree P D) : POp P D → PTree P D
  | .get path => (k.getItem t [] path).2
  | .decompose path =>
      match k.getItem t [] path with
      | (.error _, t') => t'
      | (.ok p, t') => (k.decompose t' p).2
  | .getLevel level dec => (k.getLevel t level dec).2
  | .getLeafNodes dec => (k.getLeafNodes t dec).2
  | .reconstruct path update =>
      match k.getItem t [] path with
      | (.error _, t') => t'
      | (.ok p, t') =>
          if p = [] then (k.reconstructRoot t' update).2 else (k.reconstructNode t' p update).2
  | .set path data => (k.setItem t [] data path).2
  | .del path => (k.delItem t path).2

section kinds
variable {R M : Type} [Ring R] [AddCommGroup M] [Module R M]

/-- `rec[tuple([slice(sz) for sz in shape])]`, `pywt/_wavelet_packets.py` L465-467, L532-534. -/
def cutTo (shape : List Nat) (r : Arr M) : Py (Arr M) := r.getSlices (shape.map fun s => ⟨0, some s⟩)

/-- `WaveletPacket`: `Node._decompose`, `Node._reconstruct` (`pywt/_wavelet_packets.py` L430-471);
for a packet created with data `axis` is not negative (L713-717). -/
def packet1 (w : Wavelet R) (mode : Mode) (axis : Int) (maxlevel : Int) (size : Option (List Nat)) :
    PKind Char (Arr M) where
  parts := ['a', 'd']
  shapeOf x := x.shape
  dec x := do
    let (cA, cD) ← dwtA w mode axis x
    pure fun c => if c = 'a' then cA else cD
  recon f := idwtA w mode axis (f 'a') (f 'd')
  cut := cutTo
  keeps := true
  maxlevel := maxlevel
  size := size

/-- `WaveletPacket.__init__` with data, `pywt/_wavelet_packets.py` L705-727. -/
def WaveletPacket (w : Wavelet R) (mode : Mode) (maxlevel : Option Int) (axis : Int) (data : Arr M) :
    Py (PKind Char (Arr M) × PTree Char (Arr M)) := do
  let axis := if axis < 0 then axis + data.ndim else axis
  if ¬ (0 ≤ axis ∧ axis < data.ndim) then throw .value
  let n := data.shape.getD axis.toNat 0
  match maxlevel with
  | some m =>
      let k := packet1 w mode axis.toNat m (some data.shape)
      pure (k, k.init (some data))
  | none =>
      let m ← dwtMaxLevel n w.dec_len
      let k := packet1 w mode axis.toNat (m : Int) (some data.shape)
      pure (k, k.init (some data))

/-- The four results of `dwt2` by name (`Node2D._decompose`, `pywt/_wavelet_packets.py` L484-504). -/
def pick2 (c : Arr M × (Arr M × Arr M × Arr M)) (p : Char) : Arr M :=
  if p = 'a' then c.1 else if p = 'h' then c.2.1 else if p = 'v' then c.2.2.1 else c.2.2.2

/-- `WaveletPacket2D`: `Node2D._decompose`, `Node2D._reconstruct` (`pywt/_wavelet_packets.py`
L474-538).  `idwt2` of data that is not all missing returns an array. -/
def packet2 (w : Wavelet R) (mode : Mode) (axes : List Int) (maxlevel : Int)
    (size : Option (List Nat)) : PKind Char (Arr M) where
  parts := ['a', 'h', 'v', 'd']
  shapeOf x := x.shape
  dec x := do
    let c ← dwt2 x (.one w) (.one mode) axes
    pure (pick2 c)
  recon f := do
    if f 'a' = none ∧ f 'h' = none ∧ f 'v' = none ∧ f 'd' = none then throw .value
    match ← idwt2 (f 'a', (f 'h', f 'v', f 'd')) (.one w) (.one mode) axes with
    | none => throw .attr
    | some r => pure r
  cut := cutTo
  keeps := false
  maxlevel := maxlevel
  size := size

/-- `WaveletPacketND`: `NodeND._decompose`, `NodeND._reconstruct` (`pywt/_wavelet_packets.py`
L583-663), for `axes` of length `n`. -/
def packetN (w : Wavelet R) (mode : Mode) (axes : List Int) (maxlevel : Int)
    (size : Option (List Nat)) : PKind Key (Arr M) where
  parts := words axes.length
  shapeOf x := x.shape
  dec x := do
    let c ← dwtn x (.one w) (.one mode) (some axes)
    pure fun key => (c.lookup key).getD x
  recon f := do
    match ← idwtn ((words axes.length).map fun key => (key, f key)) (.one w) (.one mode) (some axes) with
    | none => throw .attr
    | some r => pure r
  cut _ r := pure r
  keeps := false
  maxlevel := maxlevel
  size := size

/-- The sizes `[data.shape[ax] for ax in self.axes]`; a bad axis is an `IndexError`. -/
def transformSize (shape : List Nat) : List Int → Py (List Nat)
  | [] => .ok []
  | a :: axes =>
    match pyIndex shape a with
    | none => .error .index
    | some n => do
        let rest ← transformSize shape axes
        pure (n :: rest)

/-- `maxlevel`, or `dwt_max_level(min(transform_size), wavelet)` if it is `None`; `min` of an empty list
is a `ValueError`. -/
def packetLevel (w : Wavelet R) (sizes : List Nat) : Option Int → Py Int
  | some m => .ok m
  | none =>
    match sizes with
    | [] => .error .value
    | n :: ns => do
        let m ← dwtMaxLevel (ns.foldl min n) w.dec_len
        pure (m : Int)

/-- `WaveletPacket2D.__init__` with data, `pywt/_wavelet_packets.py` L837-858. -/
def WaveletPacket2D (w : Wavelet R) (mode : Mode) (maxlevel : Option Int) (axes : List Int)
    (data : Arr M) : Py (PKind Char (Arr M) × PTree Char (Arr M)) := do
  if numUnique axes ≠ 2 then throw .value
  if data.ndim < 2 then throw .value
  let sizes ← transformSize data.shape axes
  let m ← packetLevel w sizes maxlevel
  let k := packet2 w mode axes m (some data.shape)
  pure (k, k.init (some data))

/-- `WaveletPacketND.__init__` with data, `pywt/_wavelet_packets.py` L961-1009. -/
def WaveletPacketND (w : Wavelet R) (mode : Mode) (maxlevel : Option Int) (axes : Option (List Int))
    (data : Arr M) : Py (PKind Key (Arr M) × PTree Key (Arr M)) := do
  let axes := axes.getD (rangeAxes data.ndim)
  if numUnique axes ≠ axes.length then throw .value
  if data.ndim = 0 then throw .value
  if data.ndim < axes.length then throw .value
  let sizes ← transformSize data.shape axes
  let m ← packetLevel w sizes maxlevel
  let k := packetN w mode axes m (some data.shape)
  pure (k, k.init (some data))

/-- `WaveletPacket(None, wavelet, mode, maxlevel, axis)` for an integer `maxlevel`,
`pywt/_wavelet_packets.py` L705-727: `axis` is kept as it is. -/
def WaveletPacket.empty (w : Wavelet R) (mode : Mode) (maxlevel : Int) (axis : Int) :
    PKind Char (Arr M) × PTree Char (Arr M) :=
  let k := packet1 w mode axis maxlevel none
  (k, k.init none)

/-- `WaveletPacket2D(None, wavelet, mode, maxlevel, axes)` for an integer `maxlevel`,
`pywt/_wavelet_packets.py` L837-858. -/
def WaveletPacket2D.empty (w : Wavelet R) (mode : Mode) (maxlevel : Int) (axes : List Int) :
    Py (PKind Char (Arr M) × PTree Char (Arr M)) := do
  if numUnique axes ≠ 2 then throw .value
  let k := packet2 w mode axes maxlevel none
  pure (k, k.init none)

/-- `WaveletPacketND(None, wavelet, mode, maxlevel, axes)` for an integer `maxlevel`,
`pywt/_wavelet_packets.py` L961-1009. -/
def WaveletPacketND.empty (w : Wavelet R) (mode : Mode) (maxlevel : Int) (axes : Option (List Int)) :
    Py (PKind Key (Arr M) × PTree Key (Arr M)) :=
  match axes with
  | none => .error .value
  | some axes =>
    if numUnique axes ≠ axes.length then .error .value
    else
      let k := packetN w mode axes maxlevel none
      .ok (k, k.init none)

/-- `pickle.loads(pickle.dumps(wp))` for a `WaveletPacket` (`__reduce__`, `pywt/_wavelet_packets.py`
L727-729): the constructor is called with the data of the root, the wavelet, the mode and `maxlevel`.  The
wavelet is taken to be restored as it was (see `C39`). -/
def unpickle1 (w : Wavelet R) (mode : Mode) (k : PKind Char (Arr M)) (t : PTree Char (Arr M)) :
    Py (PKind Char (Arr M) × PTree Char (Arr M)) :=
  match (t []).bind (·.data) with
  | some d => WaveletPacket w mode (some k.maxlevel) (-1) d
  | none => .ok (WaveletPacket.empty w mode k.maxlevel (-1))

/-- `pickle.loads(pickle.dumps(wp))` for a `WaveletPacket2D` (`__reduce__`, `pywt/_wavelet_packets.py`
L853-855); the default of `axes` is `(-2, -1)`. -/
def unpickle2 (w : Wavelet R) (mode : Mode) (k : PKind Char (Arr M)) (t : PTree Char (Arr M)) :
    Py (PKind Char (Arr M) × PTree Char (Arr M)) :=
  match (t []).bind (·.data) with
  | some d => WaveletPacket2D w mode (some k.maxlevel) [-2, -1] d
  | none => WaveletPacket2D.empty w mode k.maxlevel [-2, -1]

end kinds

/-- One letter of `expand_2d_path`, `pywt/_wavelet_packets.py` L540-550. -/
def expandLetter (c : Char) : Char × Char :=
  if c = 'd' then ('h', 'h') else if c = 'h' then ('h', 'l') else if c = 'v' then ('l', 'h')
  else ('l', 'l')

/-- `expand_2d_path`, `pywt/_wavelet_packets.py` L540-550. -/
def expand2dPath (path : List Char) : List Char × List Char :=
  (path.map fun c => (expandLetter c).1, path.map fun c => (expandLetter c).2)

/-- The frequency order of `WaveletPacket2D.get_level`, `pywt/_wavelet_packets.py` L922-936: the rows
and columns are looked up in a dict of dicts, in which later nodes replace earlier ones. -/
def freqGrid (level : Int) (result : List (List Char)) : List (List (List Char)) :=
  let order := getGraycodeOrder level 'l' 'h'
  (order.filter fun r => result.any fun p => (expand2dPath p).1 = r).map fun r =>
    order.filterMap fun c => result.reverse.find? fun p => expand2dPath p = (r, c)

/-- `WaveletPacket2D.get_level(level, order='freq', decompose)`, `pywt/_wavelet_packets.py` L905-937. -/
def getLevelFreq2 {D : Type} (k : PKind Char D) (t : PTree Char D) (level : Int) (decompose : Bool) :
    Py (List (List (List Char))) × PTree Char D :=
  match k.getLevel t level decompose with
  | (.error e, t') => (.error e, t')
  | (.ok l, t') => (.ok (freqGrid level l), t')

end Pywt
