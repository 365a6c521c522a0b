import Verif.Prio.Round

/-! # Sizes that are computed with floating point numbers

`machin/frame/buffers/buffer_d.py`, `machin/frame/buffers/prioritized_buffer_d.py`, `machin/frame/algorithms/ars.py`,
`machin/frame/buffers/rnn_buffers.py`, `machin/model/nets/resnet.py`, `machin/frame/buffers/prioritized_buffer.py`: the places where a number of
items is computed by a division or a logarithm of floats. `fl` rounds the exact result of an operation; `Prio.double` is double precision. -/

namespace Machin.Sizes

/-- `int(np.ceil(n / p))`: `_round_up(batch_size / p_num)` (buffer_d.py:13-14, 144) and `segment_length` (ars.py:336). Python rounds the exact quotient
of two integers. -/
def roundUp (fl : ℚ → ℚ) (n p : Nat) : Int := ⌈fl ((n : ℚ) / p)⌉

/-- `int(batch_size / self.sample_length)` (rnn_buffers.py:184) and `np.int(np.floor(x.size(2) / self.out_pool_size[0]))` (resnet.py:338-339). -/
def roundDown (fl : ℚ → ℚ) (n p : Nat) : Int := ⌊fl ((n : ℚ) / p)⌋

/-- `self.depth = int(np.ceil(np.log2(self.size))) + 1` (prioritized_buffer.py:48), for what `np.log2` returns. -/
def treeDepth (log2 : Nat → ℚ) (size : Nat) : Int := ⌈log2 size⌉ + 1

/-- `sum(weights)` (prioritized_buffer_d.py:228): from left to right, beginning with 0. -/
def sumF (fl : ℚ → ℚ) : ℚ → List ℚ → ℚ
  | acc, [] => acc
  | acc, w :: ws => sumF fl (fl (acc + w)) ws

/-- `all_weight_sum` (prioritized_buffer_d.py:228). -/
def allSum (fl : ℚ → ℚ) (weights : List ℚ) : ℚ := fl (sumF fl 0 weights + fl (1 / 1000000))

/-- `ssize` (prioritized_buffer_d.py:233-234). -/
def shares (fl : ℚ → ℚ) (weights : List ℚ) (batchSize : Nat) : List Int :=
  weights.map fun w => ⌈fl (fl (w * batchSize) / allSum fl weights)⌉

end Machin.Sizes
