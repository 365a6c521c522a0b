import Verif.Base.Err

/-! # Residual networks (machin/model/nets/resnet.py)

Modules are modelled by what they do to the shapes of tensors. The batch dimension is left out, since no module of this file changes it or reads it.
Activations keep shapes and are left out as well. -/

namespace Machin.ResNet

/-- The shape of one image: planes, height and width. -/
structure Shape where
  planes : Nat
  height : Nat
  width : Nat
  deriving DecidableEq, Repr

/-- Parameters of `nn.Conv2d` (dilation is 1 in this file). -/
structure Conv where
  inPlanes : Nat
  outPlanes : Nat
  kernel : Nat
  stride : Nat
  padding : Nat
  deriving DecidableEq, Repr

/-- One spatial dimension of a convolution or of a pooling, as torch documents it: `floor((n + 2p - k) / s) + 1`. It raises if the kernel is larger than
the padded input. -/
def slide (k s p n : Nat) : Except Err Nat :=
  if n + 2 * p < k then .error .runtime else .ok ((n + 2 * p - k) / s + 1)

/-- `nn.Conv2d.__call__`: the number of planes must be the one that the layer was made for. -/
def Conv.apply (c : Conv) (x : Shape) : Except Err Shape :=
  if x.planes ≠ c.inPlanes then .error .runtime
  else do return ⟨c.outPlanes, ← slide c.kernel c.stride c.padding x.height, ← slide c.kernel c.stride c.padding x.width⟩

/-- `conv1x1` (resnet.py:9-13). -/
def conv1x1 (i o s : Nat) : Conv := ⟨i, o, 1, s, 0⟩

/-- `conv3x3` (resnet.py:16-22). -/
def conv3x3 (i o s : Nat) : Conv := ⟨i, o, 3, s, 1⟩

/-- `conv5x5` (resnet.py:25-31). -/
def conv5x5 (i o s : Nat) : Conv := ⟨i, o, 5, s, 2⟩

/-- The methods of normalization that `cfg` knows (resnet.py:44-69). -/
inductive Norm where
  | batch
  | weight
  | none
  deriving DecidableEq, Repr

/-- A normalization layer made for `n` planes: `nn.BatchNorm2d` checks the number of planes, `none_norm` is an empty sequence (resnet.py:34-35), and blocks
with weight normalization have no such layer. -/
def Norm.apply (norm : Norm) (n : Nat) (x : Shape) : Except Err Shape :=
  match norm with
  | .batch => if x.planes = n then .ok x else .error .value
  | _ => .ok x

/-- `BasicBlock` or `BasicBlockWN`; `Bottleneck` or `BottleneckWN`. -/
inductive Kind where
  | basic
  | bottleneck
  deriving DecidableEq, Repr

/-- `expansion` (resnet.py:75, 118, 164, 205). -/
def Kind.expansion : Kind → Nat
  | .basic => 1
  | .bottleneck => 4

/-- A block: convolutions of the main path, and that of the shortcut if there is one. -/
structure Block where
  main : List Conv
  shortcut : Option Conv
  norm : Norm
  deriving DecidableEq, Repr

/-- `__init__` of the blocks (resnet.py:77-106, 120-147, 166-189, 207-243). -/
def mkBlock (kind : Kind) (norm : Norm) (i o s : Nat) : Block where
  main := match kind with
    | .basic => [conv3x3 i o s, conv3x3 o (kind.expansion * o) 1]
    | .bottleneck => [conv1x1 i o 1, conv3x3 o o s, conv1x1 o (kind.expansion * o) 1]
  shortcut := if s ≠ 1 ∨ i ≠ kind.expansion * o then some (conv1x1 i (kind.expansion * o) s) else Option.none
  norm := norm

/-- Convolutions, each followed by its normalization. -/
def path (norm : Norm) : List Conv → Shape → Except Err Shape
  | [], x => .ok x
  | c :: cs, x => do
    let y ← c.apply x
    let z ← norm.apply c.outPlanes y
    path norm cs z

/-- `out += x`: every dimension of `x` has the size of that of `out`, or size 1. -/
def addTo (out x : Shape) : Except Err Shape :=
  if (x.planes = out.planes ∨ x.planes = 1) ∧ (x.height = out.height ∨ x.height = 1) ∧ (x.width = out.width ∨ x.width = 1) then .ok out
  else .error .runtime

/-- `forward` of the blocks (resnet.py:108-113, 149-155, 191-196, 245-252). -/
def Block.forward (b : Block) (x : Shape) : Except Err Shape := do
  let out ← path b.norm b.main x
  let y ← path b.norm b.shortcut.toList x
  addTo out y

/-- `cfg` (resnet.py:38-70); `none` stands for a norm that is not known. -/
def cfg (depth : Nat) (norm : Option Norm) : Except Err (Kind × List Nat) :=
  if depth ∉ [18, 34, 50, 101, 152] then .error .value
  else match norm with
    | Option.none => .error .value
    | some _ => match depth with
      | 18 => .ok (.basic, [2, 2, 2, 2])
      | 34 => .ok (.basic, [3, 4, 6, 3])
      | 50 => .ok (.bottleneck, [3, 4, 6, 3])
      | 101 => .ok (.bottleneck, [3, 4, 23, 3])
      | _ => .ok (.bottleneck, [3, 8, 36, 3])

/-- The loop of `_make_layer` over strides (resnet.py:328-330); `cur` is `_cur_in_planes`. -/
def makeBlocks (kind : Kind) (norm : Norm) (planes : Nat) : List Nat → Nat → List Block × Nat
  | [], cur => ([], cur)
  | s :: ss, cur =>
    let r := makeBlocks kind norm planes ss (planes * kind.expansion)
    (mkBlock kind norm cur planes s :: r.1, r.2)

/-- `_make_layer` (resnet.py:324-332); `[1] * k` is empty for a negative `k`. -/
def makeLayer (kind : Kind) (norm : Norm) (planes num stride cur : Nat) : List Block × Nat :=
  makeBlocks kind norm planes (stride :: List.replicate (num - 1) 1) cur

/-- The stages of `base` (resnet.py:291-319): planes and strides of `layer1` to `layer4`. -/
def stages : List (Nat × Nat) := [(64, 1), (128, 2), (256, 2), (512, 2)]

/-- Layers one after the other, handing on `_cur_in_planes`. -/
def makeLayers (kind : Kind) (norm : Norm) : List ((Nat × Nat) × Nat) → Nat → List Block
  | [], _ => []
  | ((planes, stride), num) :: rest, cur =>
    let r := makeLayer kind norm planes num stride cur
    r.1 ++ makeLayers kind norm rest r.2

/-- A `ResNet`. -/
structure Net where
  conv1 : Conv
  blocks : List Block
  norm : Norm
  fcIn : Nat
  fcOut : Nat
  pool : Nat × Nat
  deriving DecidableEq, Repr

/-- `ResNet.__init__` (resnet.py:275-322). -/
def create (inPlanes depth outPlanes : Nat) (pool : Nat × Nat) (norm : Option Norm) : Except Err Net := do
  let c ← cfg depth norm
  match norm with
  | Option.none => .error .value
  | some n => return {
      conv1 := ⟨inPlanes, 64, 7, 2, 3⟩
      blocks := makeLayers c.1 n (stages.zip c.2) 64
      norm := n
      fcIn := 512 * pool.1 * pool.2
      fcOut := outPlanes
      pool := pool }

/-- Blocks one after the other. -/
def runBlocks : List Block → Shape → Except Err Shape
  | [], x => .ok x
  | b :: bs, x => do runBlocks bs (← b.forward x)

/-- `nn.MaxPool2d(kernel_size=3, stride=2, padding=1)` (resnet.py:289). -/
def maxpool (x : Shape) : Except Err Shape := do return ⟨x.planes, ← slide 3 2 1 x.height, ← slide 3 2 1 x.width⟩

/-- `self.base` (resnet.py:290-319). -/
def Net.base (n : Net) (x : Shape) : Except Err Shape := do
  let y ← path n.norm [n.conv1] x
  let z ← maxpool y
  runBlocks n.blocks z

/-- `avg_pool2d(x, kernel_size)` in one dimension; the stride is the kernel, which must not be 0. -/
def avgPool (k n : Nat) : Except Err Nat := if k = 0 then .error .runtime else slide k k 0 n

/-- `ResNet.forward` (resnet.py:334-344), for a batch that is not empty: the number of features that come out. Quotients of floats and their floor are exact for the sizes that occur. -/
def Net.forward (n : Net) (x : Shape) : Except Err Nat :=
  if ¬ (x.height = 224 ∧ x.width = 224) then .error .assertion
  else do
    let y ← n.base x
    if n.pool.1 = 0 ∨ n.pool.2 = 0 then .error .zeroDiv
    else
      let h ← avgPool (y.height / n.pool.1) y.height
      let w ← avgPool (y.width / n.pool.2) y.width
      if y.planes * h * w = n.fcIn then return n.fcOut else .error .runtime

end Machin.ResNet
