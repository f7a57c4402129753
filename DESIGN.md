# Formal model of AldaronLau/fon 0.5.0 in Lean 4

## Approach

`fon` is a pure library: channels (samples), frames, blend operations, streams, sinks and audio buffers.
All of it except one file is modelled as total, executable Lean functions, one definition per Rust
function, each citing its source lines. Floating point is *not* abstracted away: `f32` and `f64` are modelled
as IEEE-754 binary32/binary64 (rational value + NaN + signed infinities + signed zero, round to nearest, ties
to even, overflow to infinity, gradual underflow). Each arithmetic operation is "exact rational result, then
round", so theorems speak about the real rounding behaviour of the code.

Panics are explicit values (`R α = Except Panic α`), including integer overflow, slice indexing, `unwrap`,
`expect`, `assert!`, `todo!`. Loops that may not terminate take fuel; "terminates" means "some fuel suffices".

Layers (all under `lean/Verif`):

| module | models |
|---|---|
| `Float/Round`, `Float/Fl` | IEEE-754 rounding and the Rust operations on f32/f64 used by fon |
| `Model/Rust` | panics, fixed width integers, casts |
| `Model/Math` | `src/math.rs` |
| `Model/Chan` | `src/chan.rs` |
| `Model/Frame` | `src/frame.rs`, `src/mono.rs`, `src/stereo.rs`, `src/surround.rs` |
| `Model/Ops` | `src/ops.rs` |
| `Model/Streaming` | `src/streaming.rs` (resampler, sink, take/blend streams) and stream impls of `frame.rs`, `audio.rs` |
| `Model/Audio` | `src/audio.rs` (buffer, sink, drain, extend) |
| `Model/StreamOf` | `Sink::stream` for a stream whose `len` and iterator need not agree |
| `Model/Generic` | `Sink::stream` and `Sink::flush` for any implementation of `Frame`, `Stream` and `Sink` |
| `Model/GenericAudio` | `Audio::extend` and the sink inside it for any implementation of `Frame` and `Stream` |
| `Model/GenericAdapt` | `Stream::take` and `Stream::blend` for any implementation of `Stream` |
| `Model/Effects` | `Sink::stream` and `Sink::flush` for implementations that share state |
| `Model/EffectsAudio` | `take`, `blend` and `extend` for implementations that share state |
| `Model/Forget` | iterators that are leaked instead of dropped |
| `Model/Ring` | the ring buffer of `VecDeque` under `Audio` |
| `Model/Heap` | ownership of the allocations in the unsafe conversions of `src/audio.rs` |
| `Model/Bytes` | the unsafe conversions of `src/audio.rs` for frame types of any size, alignment and padding |
| `Spec` | the small independent specifications the theorems refer to |
| `Proofs/*` | helper lemmas |
| `Props/*` | the property theorems, one section per property id |

## Plan per property

| id | modelled by | proof |
|---|---|---|
| C01, C02, C04, C05 | `BitVec 8/16` channels, checked intermediates | integer arithmetic (`omega`, division lemmas) for all values |
| C03 | same, `i32` division with its overflow panic | exact characterisation of the panicking pair; the "never" claim is refuted for Ch16, kept as `_partial` |
| C06, C07, C08 | bit-exact f32/f64 | rounding error bound lemma, then linear arithmetic |
| C09, C10 | bit-exact f32/f64 incl. NaN/inf | case analysis on float classes |
| C11 | inductive type of channel expressions | induction on expressions with invariant |
| C12, C13 | monotonicity / error bound of rounding | via nearest-point characterisation of rounding |
| C14 | f32 is a subset of f64 | representability lemma |
| C15, C16, C17 | channel model | exact characterisation; refutation by witness where the code violates the claim |
| C18, C19, C20 | frames as vectors of channels | extensionality |
| C21..C25 | `convert` by layout pairs | case analysis + C06/C07/C14 |
| C26, C27, C28 | `Blend` ops; sin/cos are parameters | C27/C28 are refuted by witness, the actual behaviour is proved |
| C29..C34 | stream expressions (deep embedding) with an iterator state machine | induction on stream expressions |
| C35, C36, C37, C38, C43, C44, C46, C56, C57 | `Sink::stream` loop with fuel | loop invariants |
| C39, C47, C55 | buffer as list (VecDeque abstracted) | list lemmas, induction on histories |
| C40, C41, C42, C45, C51, C52 | sink/extend model | refutation by concrete witness + exact positive part |
| C48, C49, C50 | `extend` model | from the sink theorems and rounding lemmas |
| C53 | raw buffers as sample lists | list lemmas |
| C56, C57, C58, C59, C60 | sink model | complete description of the loop (`stream_run`), then error bounds by induction; C59 box filter |
| C61, C74, C76, C78 | several `Sink::stream` calls in a row | from C35/C38/C40/C58 by induction over the calls |
| C62..C66, C68, C69, C70 | channel model, `Level` and `Stored` specs; `Props/MixList`: lists of samples (C66) | monotonicity and error of rounding; positive samples first and negative samples first compared |
| C67, C71, C72, C73 | conversions | integer arithmetic, rounding error below half a step |
| C75 | `extend` repeatedly | C50 by induction over the streams |
| C77 | `Model/StreamOf` | loop invariants of C37 |
| C79 | stream expressions | extensionality of `nth` |
| C80 | `stream_rel`: two runs kept in a relation indexed by slot | simulation |
| C81 | `stream_rel` with the order of stored values | monotone add, mul, weights |
| C82 | `stream_rel` with equality of one channel | simulation |
| C83 | `stream_rel` with negation (floats); `Spec/Opposite`, `Props/Opposite`: `FrameAnti`, `hits` (integers); witness | `rnd_neg`; truncated division is odd, clamping moves sums towards -1/2 |
| C84 | `stream_rel` with the trivial relation | simulation |
| C85 | three uses of C59 | triangle inequality |
| C86 | `C38_drain` and `Takes` for whole rates | exact count of positions |
| C87 | `C51_partial` at 48000/44100, `C82_channel` for the two channels | non-interference |
| C88 | one level bound per conversion, then C69 before and after | triangle inequality, `clampQ` is 1-Lipschitz |
| C89 | `box_any` for all slots and the left-over frame, `flush` for the last | box filter through `extend_run` |
| C90 | C88_conv for the operand, then C69 | triangle inequality, `clampQ` is 1-Lipschitz |
| C91 | `clamp1_is` for the operand, then the operation | rounding of exact results |
| C92 | second model that returns its state on a panic (`Model/Unwind`), agreement, loop invariant | induction on the fuel |
| C93 | `Props/Pan`: levels of the two weights near p·cos, p·sin (real functions), identity sin²+cos²=1 | real analysis of Mathlib, error sums |
| C94 | model of the example (`Model/Examples`), loop equals `frameByFrame` of C61, panics by C51 | composition |
| C95 | `Props/Area`, `Props/Local`: weights not negative, their sum at most 1 | box filter of C59, induction over the frames |
| C96 | `Props/Area`: a frame's overlaps with all slots add up to the ratio | telescoping sums |
| C97 | `Props/Pan`: positions of the speakers | three layouts, rounding of thirds |
| C98 | `Props/Pan`: the code follows the order beside CONFIG, not the one of the type's documentation | conversion tables |
| C99 | `Model/New`, `Props/New`: constructors | accuracy of the conversions (C88) |
| C100 | `Model/New`, `Props/New`: AudioStream | induction over the calls of next |
| C101 | `Spec/Upmix`, `Props/Upmix`: shares at ratios above 1 | one weighted addition per format, spacing of rounded positions, induction over frames |
| C102 | `Spec/RoundTrip`, `Spec/ThereBack`, `Props/RoundTrip`, `Props/ThereBack`, `Props/ThereBackWith`: upsampling by 2^m, or by any ratio, and back | exact dyadic positions, silence changes nothing, induction over frames, composition with C78 |
| C103 | `Model/Release`, `Props/Release`: wrapping arithmetic | ranges of the operands; a wrapped length is less than the old one |
| C104 | `Props/ExtendUp`: contents of `with_stream` to a higher rate | C101 for the destination range, the left-over frame and `flush` for the last slot |
| C105 | `Props/UpLinear`: linearity above ratio 1 | shares of a slot add up to at most the ratio, then C101 |
| C106 | `Props/Layout`: layout before or after resampling | relation between two runs of `extend` (`extend_rel`) |
| C107 | `Props/Format`: audio to another format and back | C50 twice, values of the conversions |
| C108 | `Props/MixOrder`: sum before or after resampling | contents of resampled audio (C89, C104) for three runs |
| C109 | `Props/ExtendLaws`: length, channels, order, inversion, silence | relation between two runs of `extend` (C106) |
| C110 | `Props/Resampler`: the accessors of `Resampler`, and what they are after a stream | C58 |
| C111 | `Props/Ring`: the ring buffer of `VecDeque` refines the list of frames | invariant: contents between two unused parts of the memory |
| C112 | `Model/Generic`, `Props/Generic`: traits as records of functions | one simulation theorem, then instances (equality, view of the state, trivial relation) |
| C113 | `Model/Bytes`, `Props/Bytes`: types as size, alignment and valid bytes | exact characterisation, witnesses |
| C114 | `Props/Delay`: exact positions at dyadic ratios; `Props/Whole`: any ratio up to 1; `Props/DelayUp`: ratios from 1 up | two runs compared, witnesses; box filter (C59_whole); slots of rounded positions and C101_whole |
| C115 | `Props/UserBlend`: `Blend.user`, `Blend.custom` | `mapM` over the channels; Pan by a witness |
| C116 | `Props/Downmix`: `downErr` | error of the mean in f64, C13 |
| C117 | `Spec/TwoStep`, `Props/TwoStep`, `Props/Local`, `Props/TwoStepUp`: `boxErr`, `driftErr`, `Props/WithTwice` | mean of means over whole slots, C59_whole for all three runs, witness |
| C118 | `Spec/Drains`, `Props/Drains`: `Src.drains`, `behead`, `Src.exhausted` | induction over the stream, no position of the frame after the last is in the destination range, witness |
| C119 | `Model/Counter`, `Props/Counter`: `loopC`, `streamC` | induction over the iterations, C37_fuel and C57_partial, witness |
| C120 | `Spec/Fused`, `Props/Fused`: `It.again`, `Src.dry` | induction over the iterator, witness |
| C121 | `Model/Width`, `Spec/Width`, `Props/Width`: `usize` of `W` bits, `Beyond` | induction over the loop, witness |
| C122 | `Spec/Ieee`, `Props/Ieee`: `Float/Round` and `Float/Fl` against the definition of nearest and the stored bits | two numbers equally near cannot both be even |
| C123 | `Spec/Ints`, `Props/Ints`: `Model/Rust` and the operations of `BitVec` against sums of bits | two quotients differ by less than one divisor |
| C124 | `Model/GenericAudio`, `Spec/GenericAudio`, `Props/GenericAudio`: frames and streams as records of functions | an invariant of the loop; the simulation of C112 |
| C125 | `Model/Forget`, `Spec/Forget`, `Props/Forget` | `next` never touches the buffer; induction on the iterator |
| C126 | `Model/GenericAdapt`, `Spec/GenericAdapt`, `Props/GenericAdapt` | induction on the calls; invariants on positions |
| C127 | `Model/Effects`, `Spec/Effects`, `Props/Effects` | simulation in the state monad; replay of the log |
| C128 | `Model/EffectsAudio`, `Spec/EffectsAudio`, `Props/EffectsAudio` | simulation and postconditions in the state monad |
| C129 | `Spec/Standard`, `Props/Standard`, `Props/StandardSharp`, on C51_int | exact rounding near whole numbers; table of the 121 ratios by kernel evaluation |
| C130 | `Props/Append` | same run of the sink on the new region; sums of ceilings |
| C131 | `Props/Time` | error bound of two roundings; quotient and remainder of the exact position; locality of the mixing loop |
| C132 | `Props/Convert`, `Props/ConvertUp` | two runs of extend related frame by frame; box filter, or shares when the rate goes up, in both formats with the error of a conversion |
| C133 | `Props/Stable`, `Props/Energy` | box filter: a weighted mean with weights of sum at most 1; its square is at most the mean of the squares |
| C134 | `Props/Parts` | induction over the calls; the buffer in five pieces |
| C135 | `Spec/Steps`, `Props/Steps`: `Frame.convert` twice | the 27 triples of layouts one by one; witness frame for the others |
| C136 | `Props/Causal` | rounded positions are monotone; frames beyond a slot are not heard in it |
| C137 | `Props/Mirror` | all layouts of conversion; induction over streams; loop invariant of two runs |
| C138 | `Props/Periodic`; `Props/UsualUp`: the usual rates | frames a period apart have the same weights; early and late frames are not heard in a slot |
| C139 | `Props/Pieces`; `Props/UsualUp`: the usual rates | the whole result of with_stream as mixed slots, equal weights of frames that are whole slots apart |
| C140 | `Props/Volume` | weighted sums are linear, rounding of each product bounded |
| C141 | `Props/LowPass` | summation by parts over the weights of C59, which rise and fall |
| C142 | `Props/Backwards` | overlaps of intervals are kept when time runs backwards; the sums of shares are compared with the reversed sums |
| C143 | `Props/Effect` | panning is a sum with fixed volumes (induction over the channels); sums and box filter exchanged |
| C144 | `Props/Mixer` | truncated quotients of products by sign and size, the loudest negative sample apart; floats by the error of each rounding |
| C145 | `Props/Fade`, `Props/WithMore` | weighted sums with volumes close to one number; box filter and pulses as in C59 and C101 |
| C146 | `Props/Power` | Cauchy-Schwarz with the sums of the weights over slots and over frames |
| C147 | `Props/Rising`, `Props/WithMore` | the frame at the border of two slots lies between them (C95_local on both sides) |
| C148 | `Props/Line` | the first moment of the shares of a slot is that of its middle, up to what the frames at its two ends add |
| C149 | `Props/Tone`, `Props/WithForms` | the sum of a cosine over a block (C59_mean) and, for other ratios, its tangent (C148) |
| C150 | `Props/Stretch`, `Props/WithForms` | the weights of all slots before a border telescope; at most one slot's weight crosses it |
| C151 | `Props/Image`, `Props/WithMore` | closed form of the sum of cosines that are a full turn apart (C149), exact slots (C78) |
| C152 | `Props/Sawtooth` | C87 for the length and the pairs; evaluation of the first 64 frames by the kernel, and C136 |
| C153 | `Props/Own` | the shares of a slot (C101, C104) and the accuracy of positions |
| C154 | `Props/Movement` | the difference of neighbouring slots is a weighted sum of differences of neighbouring frames (summation by parts), and for each frame the weights add up to at most one over all slots |
| C155 | `Props/Crossing` | each slot stays between the frames that are played during it (C95_local), and two neighbouring slots share at most one frame |
| C156 | `Props/Loudness` | Jensen's inequality for the shares of a slot, and the shares of a frame add up to at most the ratio |
| C157 | `Props/Vanish`, `Props/WithForms` | weights are at most the ratio, and the product with a smaller weight is not larger |
| C158 | `Spec/Trips`, `Props/Trips`, `Props/TripsAny`, `Props/TripsIff` | induction over the trips, each one is C102_partial, for other factors C102_multiple; the panics by C129_iff |
| C159 | `Props/Short` | no slot is in the range, so no frame is taken (C58_mix) |
| C54 | explicit heap with allocation states | refutation for Audio -> raw box; proof for raw box -> Audio |

## Trusted base

* The Lean 4.33.0 kernel and elaborator as used by `lake build`. No `native_decide`, no `bv_decide`, no `sorry`,
  no axioms of our own. `decide +kernel` is used only for concrete witnesses, literals and complete finite tables
  (for instance all 16 format pairs); it is checked by the kernel.
* Mathlib modules imported one at a time (ordered fields, `Int.floor`, `Rat`, lists, tactics).
* The reading of the Rust source by hand: that each Lean definition means what the cited lines of Rust mean on a
  64-bit target, with overflow checks on (`debug` profile) where a panic is modelled; C103 shows that nothing depends on it.
* The model of IEEE-754: `Verif/Float/Round.lean` and `Fl.lean`. `rnd` is defined by the scaled integer nearest with
  ties to even; `rnd` being a nearest representable number, monotone, odd and exact on representable numbers is proved,
  not assumed. C122 compares the operations and values with the definitions of IEEE 754 (`Spec/Ieee`), so that what has
  to be believed is that file, and that Rust follows IEEE 754. C123 does the same for the integers (`Spec/Ints`).
* The specifications in `Verif/Spec` (they are short, and refer to rational numbers, lists and `Option`).

### Axioms each theorem depends on

Generated by `tools/axioms.py` from the compiled environment; all of them are the three axioms of Lean's standard
library.

<!-- axioms -->

| axioms | theorems |
|---|---|
| `propext` | C54_partial C54_withBuffer |
| `Quot.sound`, `propext` | C113_slice C54_false C54_frames C54_new C54_owns |
| `Classical.choice`, `Quot.sound`, `propext` | C01_ch16_add C01_ch16_sub C01_ch8_add C01_ch8_sub C02_ch16 C02_ch16_comm C02_ch16_unit C02_ch16_zero C02_ch8 C02_ch8_comm C02_ch8_unit C02_ch8_zero C03_ch16_panics_iff C03_ch16_partial C03_ch8 C03_false C04_ch16 C04_ch16_antitone C04_ch8 C04_ch8_antitone C04_float C04_involution C04_swap C05_endpoints C05_roundtrip C05_strictMono C05_value C06_ch32 C06_ch64 C06_f64 C07_ch32 C07_ch64 C07_f64 C08_ch16 C08_ch8 C08_endpoints C08_range C08_range_ch16 C08_range_ch8 C08_strict_ch16 C08_strict_ch8 C09_clamp C09_conv_value C09_id C09_range C09_special C100_before C100_meta C100_range C101_const C101_mix C101_silent C101_whole C102_any C102_false C102_multiple C102_partial C102_pulse C102_total C102_with C103_ceil C103_chan C103_extend C103_mix C103_stream C104_up C105_loud C105_sum C105_sum_float C105_superpose C106_average C106_down C106_layout C106_panics C107_back C107_int C108_clips C108_down C108_up C109_channel C109_invert C109_length C109_mono C109_silence C10_add C10_div C10_eq C10_range C10_special C10_sub C110_after C110_index C110_new C110_restore C111_drain C111_extend C111_history C111_new C111_slice C111_vec C112_builtin C112_flush C112_lawful C112_param C112_returns C112_shrinks C112_takes C113_builtin C113_false C113_iff C113_partial C114_down C114_false C114_partial C114_up C114_up_false C114_usual C115_builtin C115_channel C115_pan C115_panics_iff C115_replaced C115_stream C116_int C116_mean C117_false C117_near C117_partial C117_up C117_up_false C117_withStream C117_withStream_int C118_actual C118_any C118_false C118_iter C118_partial C119_agree C119_false C119_finite_partial C119_fuel C119_iff C119_overflow C119_ratio_partial C11_closed C11_toF64 C120_actual C120_false C120_none C120_partial C120_safe C121_debug C121_extend C121_false C121_panics C121_release C121_wide C122_arith C122_convert C122_f32 C122_f64 C122_inf C122_nan C122_nearest C122_order C122_rem C122_sign C122_trunc C122_unique C123_checked C123_div C123_min_max C123_saturating C123_shift C123_signed C123_widen_narrow C124_builtin C124_closed C124_keeps C124_lost C124_panics_iff C125_again C125_dropped C125_iter C125_stream C126_blend_plays C126_builtin_blend C126_builtin_take C126_panics_iff C126_returns C126_take C126_take_param C126_take_plays C127_calls C127_flush C127_logged C127_param C127_returns C127_takes C128_blend C128_blend_param C128_closed C128_extend_param C128_keeps C128_lost C128_panics_iff C128_take C128_take_param C129_actual C129_false C129_iff C129_never C129_partial C129_sharp C12_ch32_iff C12_ch32_partial C12_ch64_iff C12_ch64_partial C12_false C12_false_finite C12_low C12_ofF64_mono C12_saturate C130_all C130_append C130_back C130_extra C130_panics C131_between C131_hours C131_local C131_position C131_share C131_whole C132_after C132_down C132_first C132_panics C132_range C132_up C132_up_false C133_only_down C133_power C133_stable C133_up C133_with C134_alone C134_commute C134_overlap C135_false C135_iff C135_steps C135_twice C136_end C136_extend C136_false C136_prefix C136_take C136_withStream C137_blend C137_convert C137_extend C137_false C137_flush C137_mkBlend C137_ops C137_pan C137_stream C137_withStream C138_down C138_false C138_first C138_partial C138_up C138_usual C138_withStream C139_down C139_extend C139_partial C139_seam C139_skip C139_up C139_usual C13_ch16 C13_ch8 C140_clips C140_down C140_rounding C140_up C141_cancel C141_first C141_stream C141_up C141_with C142_down C142_up_false C142_whole C142_with C143_clips C143_down C143_pan_down C143_pan_up C143_up C144_add_assoc C144_distrib C144_false C144_mix_volume C144_mixes C144_mul_assoc C144_volumes C145_down C145_false C145_partial C145_up C145_withStream C146_false C146_partial C146_up C146_with C147_falling C147_false C147_partial C147_slope C147_withStream C147_withStream_slope C148_false C148_half C148_lipschitz C148_partial C148_real C148_time C148_withStream C149_false C149_gone C149_high C149_partial C149_whole C149_withStream C14_all C14_conv C150_down C150_false C150_up C150_up_float C150_withStream C150_withStream_up C151_false C151_partial C151_withStream C152_false C152_partial C153_false C153_gap C153_partial C154_false C154_partial C154_withStream C155_false C155_partial C155_withStream C156_abs C156_false C156_partial C156_with C157_all C157_all16 C157_false C157_heard C157_lost C157_partial C157_withStream C158_48 C158_ch16 C158_ch8 C158_false C158_last C158_near C158_ok C158_ok_74 C158_ok_iff C158_ok_near C158_panics C158_partial C158_trip C158_trip_near C158_usual C159_false C159_lost C159_partial C159_pieces C159_stream C159_whole C15_false C15_not C15_partial C15_via C16_false C16_not C16_partial C17_false C17_false_rounding C17_max_ch16_partial C17_max_ch8_partial C17_max_close C17_max_far C17_max_float_partial C17_max_float_value C17_mid_ch16 C17_mid_ch8 C17_mid_float C18_add C18_frame_add C18_frame_mul C18_mul C19_chan C19_div C19_div_panics C20_fill C20_fromChannels C20_roundtrip C21_detour C21_id C21_inplace C22_false C22_iff C22_mono_partial C22_stereo C23_between_partial C23_false C23_iff C23_symmetric C24_same_format C24_upmix C25_builtin C25_custom C26_comm C26_meaning C26_panics C27_back C27_false C27_front_partial C27_only_two C28_actual C28_false C28_partial C29_forever C29_meta C30_exact C30_isEmpty C30_no_panic C31_prefix C31_rate C31_take_take C32_frames C32_len C32_mkBlend C33_panics_iff C33_rate C33_stored C34_false C34_iff C34_partial C34_rated_partial C35_copy C35_value C36_sink C36_stream C37_finite C37_fuel C38_drain C38_take C38_unused C39_drain C39_history C40_actual C40_erases C40_false C41_false C41_lost C41_partial C42_false C42_nothing C42_panics_iff C42_write C43_extend C43_range C43_withStream C44_false C44_holds C44_iff C44_loud C44_partial C45_equal C45_false C45_partial C46_false C46_iff C46_partial C47_construct C47_panics_iff C47_read C47_write C48_keeps C48_withStream C49_any C49_false C49_partial C50_actual C50_false C50_iff C50_partial C51_false C51_iff C51_int C51_memory C51_partial C52_actual C52_any C52_false C53_back C53_forth C53_frames C53_panics_iff C53_samples C54_bytes C55_panics_iff C55_slice C56_fills C57_false C57_iff C57_partial C58_mix C59_box C59_mean C59_whole C60_false C60_iff C61_actual C61_false C61_partial C61_setRate C62_div_self C62_neutral C63_add C63_lerp C63_mul C63_neg C63_sub C64_ch16 C64_ch8 C64_false C64_float_partial C65_ch16_partial C65_ch8_partial C65_false C65_float C65_sign C66_ch16_iff C66_ch8_iff C66_false C66_orders C66_partial C66_side C67_ch32_iff C67_ch64_iff C67_false C67_float C67_int C67_narrow_iff C67_narrow_partial C67_via_f64 C67_widen_partial C68_false C68_partial C68_saturates C69_add C69_lerp C69_mul C69_neg C69_sub C70_false C70_frame C70_int C70_order C70_partial C71_all C71_idempotent C72_error C72_fibre C72_mono C72_onto C73_step C74_gapless C74_plays C75_any C75_partial C76_actual C76_false C77_false C77_panics C77_partial C77_short C77_stream C78_actual C78_false C78_partial C79_comm C79_ops C79_stream C79_take_blend C79_take_left C80_local C81_mono C82_channel C83_false C83_float C83_int C83_int_tight C83_not C84_schedule C85_false C85_partial C86_false C86_partial C87_sawtooth C87_stereo C88_add C88_conv C88_false C88_mul C88_neg C88_sub C89_false C89_leftOver C89_partial C90_add C90_div_panics C90_mul C90_sub C91_clamps C91_false C91_nan C91_partial C92_drain C92_extend C92_extend_lost C92_false C92_lost C92_partial C92_stream C93_false C93_partial C93_stereo C94_actual C94_closed C94_false C94_false_differ C94_panics_iff C94_partial C95_false C95_local C95_partial C95_sign C96_false C96_partial C97_order C97_places C98_actual C98_downmix C98_false C99_new C99_own C99_raw C99_toRaw |

<!-- /axioms -->

## What is modelled

Every function of the compiled crate with behaviour:

* `math.rs`: all seven functions.
* `chan.rs`: the four formats; `new`, `From`, `to_f64`, `from_f64`, `lerp`, all operators and assigning operators,
  comparison, constants; operators whose right operand is another format or a raw number (`Model/Mixed`).
* `frame.rs`, `mono.rs`, `stereo.rs`, `surround.rs`: constructors, `channels`, `from_channel(s)`, `from_f64`, `convert`,
  operators, equality, the `Stream` impl of a frame.
* `ops.rs`: all seven blend operators (`Compress` is `todo!()` and panics), and operators defined by the user.
* `streaming.rs`: `Resampler`, `Sink::stream`, `Sink::flush`, `Stream` and its adaptors.
* `audio.rs`: `Audio`, `AudioSink`, `AudioDrain`, `extend`, `with_*`, slices, conversions to and from raw buffers
  (values in `Model/Audio`, ownership in `Model/Heap`).
* State after a panic of `stream` and `extend` (`Model/Unwind`).
* `examples/resampler.rs`: both programs up to the writing of the file (`Model/Examples`, C94); its inner loop (C61).
  `examples/sawtooth.rs` (C152).

## Simplifications

* `Audio.frames` is a list. `Model/Ring` models the ring buffer of `VecDeque` under it (Rust 1.67 and later, frames not
  zero-sized); C111 shows that the list is a faithful abstraction and that `make_contiguous` never moves anything.
* A mutable borrow is a value passed in and handed back. `Drop` of a drain is the `dropped` list of its iterator.
* One NaN; its payload and sign are not modelled (no function of fon looks at them).
* `sin`/`cos` in `pan` are parameters (in range, otherwise arbitrary).
* `f64::min/max` of zeros of different sign: the model picks one, no theorem depends on it (`Is` forgets the sign).
* `usize` has 64 bits. C121 has the functions that depend on this for any smaller width, and says when they agree.
* The loop counter of `Sink::stream` is a natural number. C119 has the same loop with a `usize`, and says when they agree.
* `Src.user` streams keep the contract of `Stream` (`len` matches the frames). C77 drops this.
* The allocation limit `isize::MAX` bytes is modelled in `extend`, `with_frame` and `with_silence`; failure of a smaller
  allocation is not. (A growing `VecDeque` may ask for twice its capacity, which passes the limit only from 2^62 bytes on.)

## Not modelled

* `src/resampler.rs`: not part of the crate (`// mod resampler;` in `lib.rs`), and not valid Rust.
* Debug formatting, trait plumbing (`Into`, `Unpin`, type aliases), inlining attributes, `private.rs`.
* Destructors of user-defined types.  (State that user-defined types share, as with `Cell` or statics: C127, C128.)
* Time, threads, and access to files in the examples.

## Where code and claim disagree

Each is refuted in Lean by a witness, and the part that does hold is proved beside it.

<!-- disagreements -->

* **C03, Integer division never panics.** Exact for Ch8. False as stated for Ch16: MIN / Ch16(-1) panics with overflow in the i32 division (C03_false); C03_ch16_panics_iff shows this is the only panicking pair and C03_ch16_partial gives the value everywhere else.
* **C12, Quantising is monotone and saturating.** from_f64 is monotone and saturating on all inputs. False as stated for From<Ch32>/From<Ch64>: these do not clamp, and -inf or an overflowing product gives 0 (C12_false, C12_false_finite, C12_low). C12_ch64_iff, C12_ch32_iff, exactly: two ordered samples, infinities included, stay in order unless the lower one, scaled, is below all floats and the higher one becomes a negative sample.
* **C15, Silence is preserved by format conversion.** False as stated: Ch8 silence becomes 128 in Ch16 and 1/255 in float (C15_not). C15_partial and C15_false decide all 16 pairs.
* **C16, Direct and via-f64 conversions agree.** False as stated for five of the sixteen format pairs (C16_false, C16_not); C16_partial proves agreement for the other eleven.
* **C17, lerp hits both end points.** MID end point holds everywhere. MAX end point is false as stated when the difference saturates (C17_false) or rounds (C17_false_rounding); exact characterisation for integers; for floats the exact value (C17_max_float_value), an error bound (C17_max_float_partial), equality if one sample is silence or neither is more than twice the other (C17_max_close), and a step of 1 from a distance of 1 on (C17_max_far).
* **C22, Upmixing then downmixing is lossless.** Proved for all Ch8, Ch16, Ch32 samples and all Ch64 samples whose double does not overflow. False as stated for larger Ch64 values, which only from_f64 can make (C22_false). C22_iff: the exact condition, infinities and NaN included.
* **C23, Downmix averages and is symmetric.** Symmetry for all values; betweenness for in-range samples. Betweenness is false for Ch64 samples near the largest f64 (C23_false). C23_iff: the exact condition for samples of any size: it fails only for opposite infinities (into Ch32 and Ch64) and for sums that overflow (into Ch64).
* **C27, Pan distributes each channel over the two speakers next to the pan position.** False as stated (C27_false, C27_back): the search stops at the first speaker left of the position, so only speakers 0 and 1 are ever reached from the first speaker to the right end. C27_front_partial proves the claim between the first two speakers, C27_only_two that no other channel is written.
* **C28, Pan of a mono frame leaves it unchanged.** False as stated: C28_actual gives the actual result for every format (doubled or 1.0).
* **C34, A stream that blend accepted can be streamed into a sink.** False as stated: a frame blended with an audio buffer is accepted and then panics in every sink (C34_false). Proved when the first stream has or stores a rate, or both are configurable. The exact condition is C34_iff.
* **C40, Streaming several streams into one sink appends them.** False as stated: the second call clears the destination range from slot 0 (C40_false, C40_erases). C40_actual says what the second call does.
* **C41, The left-over partial frame is carried into the next call.** False as stated: the left-over frame is added to slot 0 and then cleared, and it stays in the resampler (C41_lost, C41_false). True only for an empty destination range (C41_partial).
* **C42, flush writes at most one slot and never panics.** False as stated: flush panics when the index is at or past the end of the buffer (C42_false). The exact effect and the exact panic condition are proved.
* **C44, Silence in, silence out.** False for extreme rates: ratio 1e300 into Ch32 gives 1.0 (C44_false). Proved exactly when the channel format can hold the ratio as a number: always for Ch8 and Ch16, for finite ratios in Ch64, for ratios within f32 in Ch32 (C44_holds); at other ratios the slot of the first frame becomes full scale (C44_loud, C44_iff). Any resampler state, any built-in layouts.
* **C45, Constant signals stay constant when resampled.** False for upsampling: the constant becomes pulses (C45_false). Proved for rate ratios up to 1, every channel format, layout and stream, with an explicit error bound, for all slots but the first, which gets w*ratio (C45_partial); at equal rates the constant arrives unchanged (C45_equal). C101_const has the amplitudes at ratios from 1 to 2.
* **C46, Each source frame contributes with total weight equal to the rate ratio.** False exactly because of rounding (C46_false, shown on a stream). C46_partial, about the result of stream: every frame is shared between the two slots around its position with weights in [0, ratio] whose sum is within half an ulp of the ratio, exactly the ratio if at least half goes to the later slot. C46_iff: the sum is the ratio if and only if the ratio less the weight of the later slot is a float.
* **C49, Resampled length is the exact ceiling.** Exact ceiling for all whole-number rates with n*dst below 2^52 and source rate up to 2^51 (C49_partial). False as stated above that: one frame from 2^53 Hz to 1 Hz gives 0 frames (C49_false). C49_any: at all rates, whole or not, and up to 2^62 frames, the number of frames lies between n*dst/src and n*dst/src + 1, up to 2^-51 * (n*dst/src + 1).
* **C50, Extending at equal rates appends the converted stream.** Proved (including that it returns) for streams without rate and for equal rates whose product with the length is exact, which covers whole-number rates (C50_partial). False for other rates: three frames at 0.1 Hz become four (C50_false). C50_iff: at every normal rate the converted stream is appended, followed by one silent frame exactly if rate * length, rounded and divided by the rate again, comes out above the length (C50_actual: at most one).
* **C51, extend and with_stream do not panic on finite streams.** False as stated: 147 frames from 44100 to 48000 Hz always panic, whatever the contents and formats (C51_false). C51_iff: exact condition for all rates; C51_int: for whole-number rates it panics iff the resampled length is whole and the float position of the end lies above it (without rounding: C129_iff); C51_partial: never if the length is not whole or the ratio is a float. C51_memory: it also panics when the result would need more than isize::MAX bytes.
* **C52, extend is atomic when it panics.** False as stated: infinite streams panic, but the buffer is left empty with rate 0 (C52_actual, C52_false); the same after every other panic (C52_any).
* **C54, Raw sample buffers own their memory exactly once.** Ownership model of the allocator. True for with_*_buffer, Vec<F> and Box<[F]>; false for Box<[i8]>, Box<[i16]>, Box<[f32]>, Box<[f64]> of every audio that is not empty: the frames are not forgotten, so the box dangles: use after free and double free (C54_false). C54_owns characterises ownership by what the allocator accepts. C54_bytes ties the sizes used by both conversions to those of i8, i16, f32, f64.
* **C57, Streaming an infinite stream terminates for all rates.** False as stated: a sink of rate 0 never returns (C57_false). C57_iff: the exact condition, for all rates and offsets, infinities and NaN included. C57_partial: for a positive ratio, an explicit bound on the number of iterations.
* **C60, Audio from raw float buffers is in range.** False as stated: raw buffers are not clamped (C60_false). C60_iff: in range exactly if the samples were.
* **C61, Streaming frame by frame equals streaming at once.** False as stated: the offset moves on by one per call but the range of a one-frame stream is always slot 0, so every frame after the first is lost and slot 0 is cleared (C61_actual, C61_false). C61_partial: true for one frame.
* **C64, lerp stays between its end points.** Proved for Ch8 and Ch16 (C64_ch8, C64_ch16); false for floats by rounding (C64_false); C64_float_partial bounds the overshoot by two roundings on one side and shows none on the other.
* **C65, A product is never louder than its factors.** False for exactly one pair of each integer format, MAX*MIN = MIN (C65_false); C65_ch8_partial and C65_ch16_partial cover every other pair; floats proved (C65_float), signs proved (C65_sign).
* **C66, Mixing order does not matter.** False once a partial sum saturates, for every format (C66_false). C66_partial and C66_orders: true up to rounding while no partial sum leaves the range. C66_ch8_iff and C66_ch16_iff say exactly for which samples every order gives the same: the positive ones alone and the negative ones alone do not clip, or all are on the same side of zero. C66_side: samples on the same side of zero give their sum, kept in range, in every format.
* **C67, Inverting and converting commute.** False for some pairs (C67_false). C67_int, C67_float: equality for integer-to-integer and float-to-float; C67_widen_partial bounds integer-to-float, and C67_ch32_iff and C67_ch64_iff list the exceptions for 8 bit samples; float-to-integer is at most one step off (C67_narrow_partial), and C67_narrow_iff says exactly when it is equal.
* **C68, Division is the quotient of the levels.** Proved for floats (C68_partial); false for the integer formats (C68_false), whose division scales by 256/65536 instead of 127/32767.
* **C70, Comparison is a total order and Eq is lawful.** False for NaN in float formats although Eq is implemented (C70_false); C70_partial: true for every sample holding a number; C70_int, C70_frame proved.
* **C75, Repeated extend concatenates.** C75_partial: needs rate*length to be representable, the same limit as C50 (C50_false shows the failure otherwise). C75_any: at every normal rate, the streams in order with a silent frame after a stream exactly where C50_iff says so.
* **C76, A resampler carried to the next buffer continues the stream.** False (C76_false); C76_actual: the whole start of the next buffer is silence, as the offset is kept relative to the old buffer.
* **C77, Sink::stream copes with a wrong len.** False if len is None and the stream ends (C77_panics, C77_false). C77_partial: any reported length is fine. C77_short: what a short stream leaves.
* **C78, Upsampling by a whole factor keeps frames and interpolates.** Source frames stay in place for the integer formats, but the slots between are silent and floats are N times too loud (C78_actual, C78_false). C101 has all other ratios above 1.
* **C83, Inverting the stream inverts the result.** Holds for the float formats (C83_float). False for the integer formats (C83_false): ! maps 0 to -1, and weights round towards zero. C83_int: there opposite numbers give opposite results to within one unit, at every ratio up to 2^99; C83_not: with ! the error is at most one unit for each time a frame is added.
* **C85, Superposition.** False exactly (C85_false). C85_partial: when downsampling it holds up to the error bound of C59 for each of the three runs. C105_superpose: the same for upsampling, if nothing clips.
* **C86, Extending with a drain consumes the drained audio.** False when downsampling (C86_false): of ten frames from 48000 to 8000 Hz, four stay in the drained audio although a slot was added for them, and that slot is silent; of four frames from 16000 to 8000 Hz the last is taken but not heard. C86_partial (whole rates): less than one destination frame's worth stays behind, nothing if the rate does not go down.
* **C89, Downsampling with Audio::with_stream averages.** False in general (C89_false): of ten frames from 48000 to 8000 Hz the second slot, which covers the second to the seventh frame, is silent. C89_partial (whole rates) is exact: every slot gets the mean over its time of the frames that are used, but the last slot is silent if it is past the end of the signal (rounded down) and the used frames end with a slot; C89_leftOver is the same for the left-over frame. C104 is the claim for higher rates.
* **C91, A raw number as operand of a Ch32.** False in general (C91_false): the number is clamped to [-1, 1] first, so -1 + 2.0 is 0 and 0.25 * 2.0 is 0.25. C91_partial: true for numbers in [-1, 1]. C91_clamps: the result for every finite number. C91_nan: NaN counts as 1.
* **C92, A panic loses no audio.** False (C92_false): 7 frames drained at 7 Hz into an audio of 29 Hz make extend panic, and both audios are empty afterwards; C92_extend_lost: after any panic of extend the audio is empty with rate 0. C92_partial: after any call of stream the drained audio lacks only frames at the front, and the sink is unchanged outside the destination range. C92_lost, C92_drain: a panic of stream loses exactly the one frame in work. C92_stream, C92_extend: agreement with the model used elsewhere.
* **C93, Panning has constant power and keeps the sign.** The sign claim is false (C93_false): the largest sample of any format panned fully right comes out of the left Stereo speaker inverted, at half level or more, because positions beyond the outermost speaker continue the angle past 90 degrees. C93_partial: a^2 + b^2 = p^2 within 4 (7 ulp + eps), for every layout with speakers at least 2^-20 apart, at every position, other speakers silent; eps is the precision of sine and cosine. C93_stereo: in Stereo from the left speaker rightwards the levels are p cos and p sin of (x + 1/2) 90 degrees. exists_near: functions with eps = 2^-52 exist.
* **C94, The resampler example.** False: both programs panic on every file that is one second long (C94_false), and a two frame file gives different samples (C94_false_differ). C94_panics_iff: they panic exactly if the file has no whole number of frames, or 147 divides the number l of frames and round(round(160/147) l) exceeds 160 l / 147; without rounding, D = 160 l / 147 has 13 D > 16 * 2^(floor(log2 D)) (C94_closed). C94_actual: otherwise the second program writes what the first does with the first frame silenced. C94_partial: no panic and the right length if 147 does not divide l.
* **C95, Resampling stays between the lowest and highest value and keeps the sign.** The bound is false when the rate goes up: floats get N times louder (C95_false). C95_partial: it holds when the rate does not go up, up to the accuracy of C59. C95_local: every slot but the first stays between the lowest and highest of the frames played during it. C95_sign: signs are kept exactly, at every ratio, in every format, from every position. C105_loud: above ratio 1 no slot is louder than the ratio times the loudest frame.
* **C96, Resampling scales the sum of the signal by the ratio.** False for integer formats when the rate goes up (C96_false): weights above 1 saturate. C96_partial: it holds when the rate does not go up, up to the accuracy of each slot, for every format and layout. C105_sum: for upsampling, if nothing clips.
* **C98, The channels of Surround are in the documented order.** False (C98_false): stereo is heard from the documented rear left (channel 1) and front right (channel 3). C98_actual, C98_downmix: the code goes by the order of the comments beside CONFIG: rear left, front left, center, front right, rear right, LFE.
* **C102, Upsampling and back gives the signal back.** C102_partial says exactly what comes back: float samples cut off at 1/N (so quiet ones come back bit for bit), integer samples multiplied by floor(127.5/N)/127 or floor(32767.5/N)/32767. C102_pulse: downsampling a signal that is silent but for every N-th frame. False in general (C102_false): Ch8 100, -50, 127 come back as 49, -24, 63; Ch64 0.75 and -1 as 0.5 and -0.5. C102_any: for any ratio r >= 1 a quiet signal comes back with the part backOwn of every frame in its own slot and the parts backPrev, backNext in the slots beside it (Spec/ThereBack), up to the errors of both runs; C102_total: these sum up to 1 in the float formats; C102_multiple: for whole ratios quiet float samples come back, integer samples are divided by the ratio. C102_with: the same for Audio::with_stream to a higher whole rate and back, for all but the last two frames.
* **C113, Raw sample buffers are memory safe for every frame type.** False as stated: Frame is a safe trait and the type is not checked (C113_false): a frame type with a larger alignment is freed with the wrong layout, one with a bool is made from bytes that are no bool. C113_iff: no undefined behaviour exactly for types with the alignment of the samples of which all bytes are values; C113_slice: viewing as samples is fine exactly for types without padding; C113_builtin: the types of the crate are such types.
* **C114, Resampling is shift invariant.** Proved bit for bit for all ratios a / 2^m (C114_partial), including the frame left over. False for other ratios (C114_false): positions are rounded products, so the weights of delayed frames differ in the last bits. C114_down: at every ratio up to 1 it holds up to an explicit error. C114_up: between whole rates at every ratio from 1 up that is not rounded down by more than its 2^54th part, the same; all pairs of usual rates are so (usual_near, C114_usual). Where the ratio is rounded down by more it is false by far (C114_up_false, from rate 11 to rate 15).
* **C117, Resampling in two steps equals resampling at once.** C117_partial: up to an explicit error, for every first ratio up to 1 if the second factor is whole; in integer formats no intermediate sample may be the lowest number. False for other second factors (C117_false, from rate 6 to 3 to 2). C117_near: for all second factors the two ways differ by no more than the signal does around the slot, but for the first slot. C117_up: for higher rates it holds for whole factors, exactly in the integer formats and if the first factor is a power of two, otherwise up to rounding; C117_up_false: not for other factors, by far (from 4 to 6 to 9 Hz). C117_withStream: C117_up for Audio::with_stream, in every slot; C117_withStream_int: in the integer formats both ways give the same audio.
* **C118, Drains inside taken and blended streams lose exactly the frames that were taken.** C118_partial: for resamplers with an offset that is not negative. C118_any gives the result for all resamplers, C118_iter for iteration without a sink. False for a negative offset (C118_false), and for iteration up to None, where the first part of a blend loses a frame that was not yielded (C118_actual).
* **C119, The loop counter of Sink::stream does not overflow.** C119_finite_partial: true for streams of less than 2^64 - 1 frames; C119_ratio_partial: true for all streams, if the ratio is at least the length of the buffer over 2^63. C119_agree: up to 2^64 - 1 iterations both builds agree with the model used elsewhere. C119_iff: the exact condition for endless streams. False for endless streams at a lower ratio (C119_overflow, C119_false): the debug build panics, the release build never returns.
* **C120, A stream that has ended stays ended.** C120_none: no frame ever comes after None; C120_safe: streams of built-in layouts and operations do not panic either. C120_partial: and buffers lose nothing, if none is drained in the first part of a blend. False otherwise (C120_false): C120_actual: every further call takes a frame out of a longer first buffer.
* **C121, Targets with a 32-bit usize behave like those with 64 bits.** C121_release: the same without overflow checks. With them every panic is the same (C121_panics), and so is every result unless the stream ends past the largest usize between two slots (C121_debug); then ceil_usize overflows and the call panics (C121_false, witness at 32 bits), which cannot happen with 64 bits (C121_wide). C121_extend: extend gives the same result in both builds exactly if that fits into the memory.
* **C129, Audio can be converted between the usual sample rates.** False in 15 of the 121 directions: from 11025, 22050, 44100, 88200, 176400 Hz to 48000, 96000, 192000 Hz it panics on one second, one minute and one hour of audio (C129_false). C129_actual: in those directions it panics exactly if the resampled length D is whole and 13 D > 16 * 2^(floor(log2 D)). C129_partial: never in the other 106. C129_iff: for all whole rates it panics iff D is whole and the rounding error of the ratio times the stream length is more than half a unit in the last place of D; C129_never: so never if the ratio is rounded up by at most a quarter of a unit. C129_sharp: for whole rates up to 2^16 Hz this is exact: otherwise some whole number of seconds panics.
* **C137, Left and right are treated alike.** For streams without Pan. C137_pan: between the speakers of Stereo Pan is symmetric too, up to rounding. C137_false: not in Surround, where no position from -2/3 on gives the mirror image of what another such position gives.
* **C138, Periodic signals keep their pitch.** C138_partial, C138_withStream: bit for bit for ratios a / 2^m. C138_down, C138_up: at all ratios up to 1, and at ratios of whole rates above 1 that are not rounded down by more than their 2^54th part, from any format to any format, up to a small error that is stated (C114_up_false: by far not if they are rounded down by more). C138_usual: this covers all usual rates. C138_false: the last bits may differ (from rate 10 to rate 3). C138_first: the very first slot is different, as there is nothing before it.
* **C139, Resampling in pieces.** True in all slots but one: the first slot of the second piece lacks what the last frames of the first piece would add to it (`C139_seam`), since `extend` starts with a fresh resampler and what the first piece leaves over for a slot outside is dropped. `C139_partial`/`C139_extend`: at ratios a/2^m everything else is equal bit for bit, including the lengths and the slot that `flush` writes; if the rate is multiplied by a whole number (or kept) there is no exception. `C139_skip`: the same for `Sink::stream` with buffers and lengths of any kind. `C139_down`, `C139_up`: at all other ratios up to explicit error bounds, from any format to any format (when the rate goes up, if the ratio is not rounded down by more than its 2^54th part; `C139_usual`: this covers all usual rates).
* **C143, Panning before or after resampling.** False if there is clipping (C143_clips: both channels go to one speaker; one loud frame and one of silence give half of the full level if panned first, and three quarters if resampled first). C143_pan_down, C143_pan_up: true with an explicit error if the levels of the channels add up to a little less than 1 and, when the rate goes up, the stream is quiet enough not to clip while it is resampled. C143_down, C143_up: the same for all effects that are linear in the sense of `LinearAt`.
* **C145, A changing volume before or after resampling.** False when the rate goes up, where both the sound and the volume become pulses, and for volumes that change fast (C145_false). C145_partial: true when the rate does not go up, for every slot but the first, with an error of the range of the volumes played during the slot plus an explicit small error. C145_down, C145_up: at any rate a slot has G times the level it has without the volume if the volumes around it are within delta of G, up to delta and a small error (when the rate goes up, for sounds that do not clip). C145_withStream: C145_down for Audio::with_stream at whole rates, all slots but the last.
* **C146, Resampling to a lower rate does not raise the power.** False when the rate goes up (C146_false: frames of 1/2 become pulses of 1, which have twice the mean square). C146_partial: true for sinks when the rate does not go up, C146_with: the same for Audio::with_stream at whole rates. C146_up: at a ratio r above 1 the sum of the squares is at most r (r + 1) times that of the frames.
* **C147, Rising signals stay rising.** False when the rate goes up (C147_false: there are pulses). C147_partial, C147_falling: true when the rate does not go up, for all slots but the first, up to twice the accuracy of the box filter. C147_slope: neighbouring slots differ by at most d (1/r + r/4) if neighbouring frames differ by at most d. C147_withStream, C147_withStream_slope: C147_partial and C147_slope for Audio::with_stream, all slots but the first and the last.
* **C148, A lower rate samples the same sound.** False when the rate goes up (C148_false: there are pulses). True when the rate does not go up, for all slots but the first: C148_partial (in frames and slots), C148_half (the rate divided by a power of two: no loss but rounding), C148_time (in seconds), C148_lipschitz (sounds of bounded slope), C148_withStream (all slots but the first and the last).
* **C149, A tone keeps its pitch when the rate goes down.** That tones of more than half the new rate vanish is false (C149_false: a tone of 4 Hz is heard at 6 Hz, like one of 2 Hz). C149_whole: exact level for all whole factors, for all slots but the first, up to rounding. C149_gone: the tones that vanish are those that fit into a slot a whole number of times. C149_high: no tone comes out louder than 1 / (N sin(d / 2)). C149_partial: at every ratio up to 1 a tone keeps frequency and level, up to the square of the angle that it turns in a slot (C148_real is C148 with real numbers). C149_withStream: C149_whole for Audio::with_stream at whole rates, all slots but the first and the last.
* **C150, The mean over a stretch of time is kept, at every ratio.** C150_down for all ratios up to 1 and all formats (plus a rounding error per slot). C150_up for ratios above 1 and signals quiet enough not to clip, with the weight that the code gives to each frame; C150_up_float is the property itself for float formats. For integer formats and higher rates it is false (C150_false: the sum is half of what it should be, because the gain of a new slot is cut off at 1). C150_withStream and C150_withStream_up: C150_down and C150_up_float for Audio::with_stream at whole rates, slots before the last.
* **C151, A tone keeps its pitch when the rate goes up.** False (C151_false): there is no interpolation, so the tone arrives together with images. C151_partial, for whole factors N: the result is the sum of exactly N tones of the same level, at the frequency of the tone plus all multiples of the old rate below the new rate, up to one rounding. In the float formats each has the level of the tone (if nothing clips), in the integer formats an N-th of it. C151_withStream: C151_partial for Audio::with_stream, in every slot.
* **C152, The sawtooth example prints a sawtooth.** False (C152_false): the numbers fall, the first time from -29125 to -29684. About every twelfth slot has no frame of its own and gets only what is left over of its neighbours. C152_partial: the program finishes and prints 558 numbers, the two of each pair equal; the first 69 pairs are within 1964 of the line, and within 23 wherever a frame of the source falls into the slot.
* **C153, Upsampling keeps signals that change slowly.** False (C153_false): at 8 to 12 Hz every third slot has half the level. C153_partial: true, at every ratio from 1 on, for all slots that a frame has its position in; the weights of the frames that reach it add up to one. In the float formats only if the frame comes late enough in the slot, otherwise it is too loud. C153_gap: a slot without a frame of its own gets a part of the frame in the slot before it.
* **C154, Resampling adds no movement.** False when the rate goes up and when the first slot counts (C154_false: constant signals move). C154_partial: true when the rate does not go up, for every stretch after the first slot, against the frames that are played during the stretch, up to the accuracy of the box filter for each slot. C154_withStream: the same for audio made by with_stream, without its last slot.
* **C155, Resampling adds no crossings.** False when the rate goes up (C155_false). C155_partial: true when the rate does not go up, for all slots but the first that are off the level by more than the accuracy of the box filter; every frame is played during its slot. C155_withStream: the same for with_stream, without the last slot.
* **C156, Resampling does not raise the loudness, however it is measured.** False when the rate goes up (C156_false). C156_partial: true when the rate does not go up, up to a small error for each slot. C156_abs: absolute values, and what exceeds any threshold. C156_with: the same for with_stream, for all slots.
* **C157, No signal is lost by resampling to a lower rate.** False for the integer formats (C157_false: 48000 Hz to 8000 Hz, level 6 of 127). C157_lost, C157_withStream: a channel in which every sample times the ratio is rounded to 0 becomes silence, and nothing is left over. C157_all, C157_all16: to 1/128 (Ch8) or 1/32768 (Ch16) of the rate every signal becomes silence. C157_partial: a slot is not silent if the mean over its time exceeds the bound of C59. C157_heard: C157_partial for Audio::with_stream.
* **C158, Further trips through a higher rate lose nothing more.** C158_partial: true in the float formats, samples are cut off at 1/N by the first trip and stay as they are. C158_ok: none of the trips panics. False in the integer formats (C158_false: 100, 49, 24). C158_ch8, C158_ch16: every trip multiplies by at most floor(127.5/N)/127 or floor(32767.5/N)/32767, and after seven (Ch8) or fifteen (Ch16) trips there is only silence. These are for powers of two. C158_trip_near, C158_near: for every whole factor N from 2 on every trip of a signal that is quiet enough not to clip changes float samples by at most tripErr (and divides integer samples by N), if the number of frames that fit is not rounded down on the way back, which is needed for the last slot. C158_ok_near: none of these trips panics if 1/N is not rounded up by more than its 2^54th part. C158_ok_iff: the exact condition under which trips do not panic. C158_ok_74: never up to N = 74; C158_panics: at N = 75 seven frames never come back. C158_usual: trips from one usual rate through a multiple that is a usual rate never panic. C158_48: up to N = 48 all of it holds for every number of frames (C158_last: at N = 49 a frame is lost).
* **C159, Short sounds are not lost by resampling.** False (C159_false: five frames at full level are lost between 48000 and 8000 Hz). C159_stream: if the ratio times the number of frames is less than 1, the stream is not played at all, the index of the resampler stays where it is and nothing is left over. C159_lost: with_stream makes silence of all such streams; C159_whole: at whole rates these are the streams of less than 1 / dst seconds, and the result is one frame of silence. C159_pieces: a sound of any length that is appended in such pieces becomes silence. C159_partial: in the slots that lie in the time of the stream, what is louder than the bound of C59 is heard.

<!-- /disagreements -->

## Further observations

* Streaming 3 frames at 3 Hz into a sink of 2 Hz drops part of the last frame: what falls behind the range goes to
  `partial`, which is never heard (C41).
* In a blend of two drains, `Zip` takes one frame more from the first than from the second when the second ends.
* `-0.0` arrives as `+0.0`; NaN and infinities arrive as `+1.0` (`Arrives`).
* Integer formats clamp weights above 1, float formats do not, so the same upsampling sounds different (C78).
* The documentation example of `lib.rs` and `examples/sawtooth.rs` (256 frames, 44100 to 48000 Hz) do not hit the
  panic of C51, as 256*48000/44100 is not whole.

## Model validation

The crate is not run, so the model is compared with three other sources. None of them is part of a proof.

* `tools/tests.py` translates the unit tests of `chan.rs` (14 tests, 129 assertions) to `example`s about the model in
  `Model/Tests.lean`; all hold.
* `tools/floatcheck.py` compares the float model with the machine's floats: 228,672 comparisons, no difference.
* `tools/portcheck.py [seed]` compares the model with an independent translation of the Rust source to Python:
  operators, conversions, frames, two streams into a sink with flush, `extend`. About 23,000 cases per seed, no difference
  for the seeds 3, 11, 12 and 13.

## Mutation testing

`seeded/LOG.jsonl` has one line per deliberately wrong program: the definition edited, the edit, the claim it breaks,
the theorems that then fail, and what was tightened because of it.
