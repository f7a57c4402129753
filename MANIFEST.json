{
 "claims": [
  {
   "property": "C01",
   "status": "proved",
   "theorems": [
    "Fon.C01_ch8_add",
    "Fon.C01_ch8_sub",
    "Fon.C01_ch16_add",
    "Fon.C01_ch16_sub"
   ],
   "note": "Exact clamp of the integer sum and difference; the model has no panic on this path."
  },
  {
   "property": "C02",
   "status": "proved",
   "theorems": [
    "Fon.C02_ch8",
    "Fon.C02_ch16",
    "Fon.C02_ch8_unit",
    "Fon.C02_ch16_unit",
    "Fon.C02_ch8_zero",
    "Fon.C02_ch16_zero",
    "Fon.C02_ch8_comm",
    "Fon.C02_ch16_comm"
   ],
   "note": "Exact truncated quotient, unit, zero and commutativity."
  },
  {
   "property": "C03",
   "status": "partial",
   "theorems": [
    "Fon.C03_ch8",
    "Fon.C03_ch16_partial",
    "Fon.C03_false",
    "Fon.C03_ch16_panics_iff"
   ],
   "note": "Exact for Ch8. False as stated for Ch16: MIN / Ch16(-1) panics with overflow in the i32 division (C03_false); C03_ch16_panics_iff shows this is the only panicking pair and C03_ch16_partial gives the value everywhere else."
  },
  {
   "property": "C04",
   "status": "proved",
   "theorems": [
    "Fon.C04_ch8",
    "Fon.C04_ch16",
    "Fon.C04_involution",
    "Fon.C04_ch8_antitone",
    "Fon.C04_ch16_antitone",
    "Fon.C04_swap",
    "Fon.C04_float"
   ],
   "note": "-1-x, involution, antitone, swaps end points; float negation is an involution."
  },
  {
   "property": "C05",
   "status": "proved",
   "theorems": [
    "Fon.C05_value",
    "Fon.C05_strictMono",
    "Fon.C05_endpoints",
    "Fon.C05_roundtrip"
   ],
   "note": "257c+128, strictly monotone, end points, round trip."
  },
  {
   "property": "C06",
   "status": "proved",
   "theorems": [
    "Fon.C06_ch64",
    "Fon.C06_ch32",
    "Fon.C06_f64"
   ],
   "note": "Round trips for all Ch8 values by a rounding error argument, both float formats."
  },
  {
   "property": "C07",
   "status": "proved",
   "theorems": [
    "Fon.C07_ch64",
    "Fon.C07_ch32",
    "Fon.C07_f64"
   ],
   "note": "Round trips for all Ch16 values by a rounding error argument, both float formats."
  },
  {
   "property": "C08",
   "status": "proved",
   "theorems": [
    "Fon.C08_range_ch8",
    "Fon.C08_range_ch16",
    "Fon.C08_range",
    "Fon.C08_endpoints",
    "Fon.C08_strict_ch8",
    "Fon.C08_strict_ch16",
    "Fon.C08_ch8",
    "Fon.C08_ch16"
   ],
   "note": "Range, exact end points, strict monotonicity."
  },
  {
   "property": "C09",
   "status": "proved",
   "theorems": [
    "Fon.C09_range",
    "Fon.C09_id",
    "Fon.C09_clamp",
    "Fon.C09_special",
    "Fon.C09_conv_value"
   ],
   "note": "All inputs including NaN, infinities and signed zeros."
  },
  {
   "property": "C10",
   "status": "proved",
   "theorems": [
    "Fon.C10_range",
    "Fon.C10_add",
    "Fon.C10_sub",
    "Fon.C10_div",
    "Fon.C10_special",
    "Fon.C10_eq"
   ],
   "note": "All operand pairs."
  },
  {
   "property": "C11",
   "status": "proved",
   "theorems": [
    "Fon.C11_closed",
    "Fon.C11_toF64"
   ],
   "note": "Induction over expression trees."
  },
  {
   "property": "C12",
   "status": "partial",
   "theorems": [
    "Fon.C12_ofF64_mono",
    "Fon.C12_saturate",
    "Fon.C12_ch64_partial",
    "Fon.C12_ch32_partial",
    "Fon.C12_false",
    "Fon.C12_false_finite",
    "Fon.C12_ch64_iff",
    "Fon.C12_ch32_iff",
    "Fon.C12_low"
   ],
   "note": "from_f64 is monotone and saturating on all inputs. False as stated for From<Ch32>/From<Ch64>: these do not clamp, and -inf or an overflowing product gives 0 (C12_false, C12_false_finite, C12_low). C12_ch64_iff, C12_ch32_iff, exactly: two ordered samples, infinities included, stay in order unless the lower one, scaled, is below all floats and the higher one becomes a negative sample."
  },
  {
   "property": "C13",
   "status": "proved",
   "theorems": [
    "Fon.C13_ch8",
    "Fon.C13_ch16"
   ],
   "note": "Within 1/255 (1/65535) plus 2^-50 for float rounding."
  },
  {
   "property": "C14",
   "status": "proved",
   "theorems": [
    "Fon.C14_all",
    "Fon.C14_conv"
   ],
   "note": "All f32 values."
  },
  {
   "property": "C15",
   "status": "partial",
   "theorems": [
    "Fon.C15_partial",
    "Fon.C15_false",
    "Fon.C15_not",
    "Fon.C15_via"
   ],
   "note": "False as stated: Ch8 silence becomes 128 in Ch16 and 1/255 in float (C15_not). C15_partial and C15_false decide all 16 pairs."
  },
  {
   "property": "C16",
   "status": "partial",
   "theorems": [
    "Fon.C16_partial",
    "Fon.C16_false",
    "Fon.C16_not"
   ],
   "note": "False as stated for five of the sixteen format pairs (C16_false, C16_not); C16_partial proves agreement for the other eleven."
  },
  {
   "property": "C17",
   "status": "partial",
   "theorems": [
    "Fon.C17_mid_ch8",
    "Fon.C17_mid_ch16",
    "Fon.C17_mid_float",
    "Fon.C17_max_ch8_partial",
    "Fon.C17_max_ch16_partial",
    "Fon.C17_max_float_partial",
    "Fon.C17_false",
    "Fon.C17_false_rounding",
    "Fon.C17_max_float_value",
    "Fon.C17_max_close",
    "Fon.C17_max_far"
   ],
   "note": "MID end point holds everywhere. MAX end point is false as stated when the difference saturates (C17_false) or rounds (C17_false_rounding); exact characterisation for integers; for floats the exact value (C17_max_float_value), an error bound (C17_max_float_partial), equality if one sample is silence or neither is more than twice the other (C17_max_close), and a step of 1 from a distance of 1 on (C17_max_far)."
  },
  {
   "property": "C18",
   "status": "proved",
   "theorems": [
    "Fon.C18_add",
    "Fon.C18_mul",
    "Fon.C18_frame_add",
    "Fon.C18_frame_mul"
   ],
   "note": "All channel values and all frames."
  },
  {
   "property": "C19",
   "status": "proved",
   "theorems": [
    "Fon.C19_chan",
    "Fon.C19_div",
    "Fon.C19_div_panics"
   ],
   "note": "Channel by channel; division panics exactly when one channel's does."
  },
  {
   "property": "C20",
   "status": "proved",
   "theorems": [
    "Fon.C20_fill",
    "Fon.C20_roundtrip",
    "Fon.C20_fromChannels"
   ],
   "note": "All constructors, all slice lengths, all layouts."
  },
  {
   "property": "C21",
   "status": "proved",
   "theorems": [
    "Fon.C21_inplace",
    "Fon.C21_id",
    "Fon.C21_detour"
   ],
   "note": "In place conversion, identity, and lossless detours through wider formats, for all values."
  },
  {
   "property": "C22",
   "status": "partial",
   "theorems": [
    "Fon.C22_mono_partial",
    "Fon.C22_stereo",
    "Fon.C22_false",
    "Fon.C22_iff"
   ],
   "note": "Proved for all Ch8, Ch16, Ch32 samples and all Ch64 samples whose double does not overflow. False as stated for larger Ch64 values, which only from_f64 can make (C22_false). C22_iff: the exact condition, infinities and NaN included."
  },
  {
   "property": "C23",
   "status": "partial",
   "theorems": [
    "Fon.C23_symmetric",
    "Fon.C23_between_partial",
    "Fon.C23_false",
    "Fon.C23_iff"
   ],
   "note": "Symmetry for all values; betweenness for in-range samples. Betweenness is false for Ch64 samples near the largest f64 (C23_false). C23_iff: the exact condition for samples of any size: it fails only for opposite infinities (into Ch32 and Ch64) and for sums that overflow (into Ch64)."
  },
  {
   "property": "C24",
   "status": "proved",
   "theorems": [
    "Fon.C24_upmix",
    "Fon.C24_same_format"
   ],
   "note": "Exact layout, all formats."
  },
  {
   "property": "C25",
   "status": "proved",
   "theorems": [
    "Fon.C25_builtin",
    "Fon.C25_custom"
   ],
   "note": "Built-in layouts return, custom layouts panic."
  },
  {
   "property": "C26",
   "status": "proved",
   "theorems": [
    "Fon.C26_meaning",
    "Fon.C26_comm",
    "Fon.C26_panics"
   ],
   "note": "Exact results; Compress panics on any frame with a channel."
  },
  {
   "property": "C27",
   "status": "partial",
   "theorems": [
    "Fon.C27_only_two",
    "Fon.C27_front_partial",
    "Fon.C27_false",
    "Fon.C27_back"
   ],
   "note": "False as stated (C27_false, C27_back): the search stops at the first speaker left of the position, so only speakers 0 and 1 are ever reached from the first speaker to the right end. C27_front_partial proves the claim between the first two speakers, C27_only_two that no other channel is written."
  },
  {
   "property": "C28",
   "status": "partial",
   "theorems": [
    "Fon.C28_actual",
    "Fon.C28_false",
    "Fon.C28_partial"
   ],
   "note": "False as stated: C28_actual gives the actual result for every format (doubled or 1.0)."
  },
  {
   "property": "C29",
   "status": "proved",
   "theorems": [
    "Fon.C29_forever",
    "Fon.C29_meta"
   ],
   "note": "All step counts."
  },
  {
   "property": "C30",
   "status": "proved",
   "theorems": [
    "Fon.C30_exact",
    "Fon.C30_no_panic",
    "Fon.C30_isEmpty"
   ],
   "note": "Induction over stream expressions; no panic for built-in frames without Compress."
  },
  {
   "property": "C31",
   "status": "proved",
   "theorems": [
    "Fon.C31_prefix",
    "Fon.C31_rate",
    "Fon.C31_take_take"
   ],
   "note": "Prefix, take of take, rate."
  },
  {
   "property": "C32",
   "status": "proved",
   "theorems": [
    "Fon.C32_frames",
    "Fon.C32_mkBlend",
    "Fon.C32_len"
   ],
   "note": "Frame by frame, length is the shorter."
  },
  {
   "property": "C33",
   "status": "proved",
   "theorems": [
    "Fon.C33_panics_iff",
    "Fon.C33_stored",
    "Fon.C33_rate"
   ],
   "note": "Exact panic condition; the rate of the accepted blend is given by C33_rate (C33_stored for set_sample_rate)."
  },
  {
   "property": "C34",
   "status": "partial",
   "theorems": [
    "Fon.C34_partial",
    "Fon.C34_rated_partial",
    "Fon.C34_iff",
    "Fon.C34_false"
   ],
   "note": "False as stated: a frame blended with an audio buffer is accepted and then panics in every sink (C34_false). Proved when the first stream has or stores a rate, or both are configurable. The exact condition is C34_iff."
  },
  {
   "property": "C35",
   "status": "proved",
   "theorems": [
    "Fon.C35_copy",
    "Fon.C35_value"
   ],
   "note": "Any layouts and formats, any finite stream whose frames convert; lengths up to 2^53 (f64 counts exactly). Out-of-range samples are clamped and NaN/infinite ones become 1 (part of the statement, C35_value). An empty stream still adds the silent left-over frame to slot 0, which clamps a float sample there."
  },
  {
   "property": "C36",
   "status": "proved",
   "theorems": [
    "Fon.C36_stream",
    "Fon.C36_sink"
   ],
   "note": "Every stream, rate, state; slot 0 receives the left-over frame only when the destination range is empty (added then cleared otherwise)."
  },
  {
   "property": "C37",
   "status": "proved",
   "theorems": [
    "Fon.C37_finite",
    "Fon.C37_fuel"
   ],
   "note": "All rates including NaN, infinite and negative; all resampler states. Requires the stream's own iterator not to panic (see C34)."
  },
  {
   "property": "C38",
   "status": "proved",
   "theorems": [
    "Fon.C38_drain",
    "Fon.C38_take",
    "Fon.C38_unused"
   ],
   "note": "C38_take gives the exact number of frames taken for every stream; C38_drain the buffer left in a drained Audio; C38_unused says frames not taken have no influence."
  },
  {
   "property": "C39",
   "status": "proved",
   "theorems": [
    "Fon.C39_drain",
    "Fon.C39_history"
   ],
   "note": "C39_drain for one drain, C39_history for any sequence of drains."
  },
  {
   "property": "C40",
   "status": "partial",
   "theorems": [
    "Fon.C40_actual",
    "Fon.C40_false",
    "Fon.C40_erases"
   ],
   "note": "False as stated: the second call clears the destination range from slot 0 (C40_false, C40_erases). C40_actual says what the second call does."
  },
  {
   "property": "C41",
   "status": "partial",
   "theorems": [
    "Fon.C41_lost",
    "Fon.C41_false",
    "Fon.C41_partial"
   ],
   "note": "False as stated: the left-over frame is added to slot 0 and then cleared, and it stays in the resampler (C41_lost, C41_false). True only for an empty destination range (C41_partial)."
  },
  {
   "property": "C42",
   "status": "partial",
   "theorems": [
    "Fon.C42_write",
    "Fon.C42_nothing",
    "Fon.C42_panics_iff",
    "Fon.C42_false"
   ],
   "note": "False as stated: flush panics when the index is at or past the end of the buffer (C42_false). The exact effect and the exact panic condition are proved."
  },
  {
   "property": "C43",
   "status": "proved",
   "theorems": [
    "Fon.C43_extend",
    "Fon.C43_withStream",
    "Fon.C43_range"
   ],
   "note": "Every stream, every rate (also NaN and infinite), every resampler state. C43_extend, C43_withStream: also all frames that extend appends."
  },
  {
   "property": "C44",
   "status": "partial",
   "theorems": [
    "Fon.C44_holds",
    "Fon.C44_loud",
    "Fon.C44_iff",
    "Fon.C44_partial",
    "Fon.C44_false"
   ],
   "note": "False for extreme rates: ratio 1e300 into Ch32 gives 1.0 (C44_false). Proved exactly when the channel format can hold the ratio as a number: always for Ch8 and Ch16, for finite ratios in Ch64, for ratios within f32 in Ch32 (C44_holds); at other ratios the slot of the first frame becomes full scale (C44_loud, C44_iff). Any resampler state, any built-in layouts."
  },
  {
   "property": "C45",
   "status": "partial",
   "theorems": [
    "Fon.C45_false",
    "Fon.C45_partial",
    "Fon.C45_equal"
   ],
   "note": "False for upsampling: the constant becomes pulses (C45_false). Proved for rate ratios up to 1, every channel format, layout and stream, with an explicit error bound, for all slots but the first, which gets w*ratio (C45_partial); at equal rates the constant arrives unchanged (C45_equal). C101_const has the amplitudes at ratios from 1 to 2."
  },
  {
   "property": "C46",
   "status": "partial",
   "theorems": [
    "Fon.C46_partial",
    "Fon.C46_false",
    "Fon.C46_iff"
   ],
   "note": "False exactly because of rounding (C46_false, shown on a stream). C46_partial, about the result of stream: every frame is shared between the two slots around its position with weights in [0, ratio] whose sum is within half an ulp of the ratio, exactly the ratio if at least half goes to the later slot. C46_iff: the sum is the ratio if and only if the ratio less the weight of the later slot is a float."
  },
  {
   "property": "C47",
   "status": "proved",
   "theorems": [
    "Fon.C47_construct",
    "Fon.C47_panics_iff",
    "Fon.C47_read",
    "Fon.C47_write"
   ],
   "note": "Constructors, all readers and both writers against indexing; VecDeque is modelled as a list, so a history of operations is a composition of these."
  },
  {
   "property": "C48",
   "status": "proved",
   "theorems": [
    "Fon.C48_keeps",
    "Fon.C48_withStream"
   ],
   "note": "For every buffer, stream and rate: rate and old frames kept; growth is the float quotient rounded up where a fraction up to the machine epsilon does not count (Growth). C49 relates this to the exact ceiling."
  },
  {
   "property": "C49",
   "status": "partial",
   "theorems": [
    "Fon.C49_partial",
    "Fon.C49_false",
    "Fon.C49_any"
   ],
   "note": "Exact ceiling for all whole-number rates with n*dst below 2^52 and source rate up to 2^51 (C49_partial). False as stated above that: one frame from 2^53 Hz to 1 Hz gives 0 frames (C49_false). C49_any: at all rates, whole or not, and up to 2^62 frames, the number of frames lies between n*dst/src and n*dst/src + 1, up to 2^-51 * (n*dst/src + 1)."
  },
  {
   "property": "C50",
   "status": "partial",
   "theorems": [
    "Fon.C50_partial",
    "Fon.C50_actual",
    "Fon.C50_false",
    "Fon.C50_iff"
   ],
   "note": "Proved (including that it returns) for streams without rate and for equal rates whose product with the length is exact, which covers whole-number rates (C50_partial). False for other rates: three frames at 0.1 Hz become four (C50_false). C50_iff: at every normal rate the converted stream is appended, followed by one silent frame exactly if rate * length, rounded and divided by the rate again, comes out above the length (C50_actual: at most one)."
  },
  {
   "property": "C51",
   "status": "partial",
   "theorems": [
    "Fon.C51_iff",
    "Fon.C51_int",
    "Fon.C51_partial",
    "Fon.C51_false",
    "Fon.Heap.C51_memory"
   ],
   "note": "False as stated: 147 frames from 44100 to 48000 Hz always panic, whatever the contents and formats (C51_false). C51_iff: exact condition for all rates; C51_int: for whole-number rates it panics iff the resampled length is whole and the float position of the end lies above it (without rounding: C129_iff); C51_partial: never if the length is not whole or the ratio is a float. C51_memory: it also panics when the result would need more than isize::MAX bytes."
  },
  {
   "property": "C52",
   "status": "partial",
   "theorems": [
    "Fon.C52_actual",
    "Fon.C52_any",
    "Fon.C52_false"
   ],
   "note": "False as stated: infinite streams panic, but the buffer is left empty with rate 0 (C52_actual, C52_false); the same after every other panic (C52_any)."
  },
  {
   "property": "C53",
   "status": "proved",
   "theorems": [
    "Fon.C53_panics_iff",
    "Fon.C53_frames",
    "Fon.C53_samples",
    "Fon.C53_back",
    "Fon.C53_forth"
   ],
   "note": "All layouts with at least one channel and all four formats; both round trips."
  },
  {
   "property": "C54",
   "status": "partial",
   "theorems": [
    "Fon.Heap.C54_owns",
    "Fon.Heap.C54_new",
    "Fon.Heap.C54_withBuffer",
    "Fon.Heap.C54_frames",
    "Fon.Heap.C54_false",
    "Fon.Heap.C54_partial",
    "Fon.Heap.C54_bytes"
   ],
   "note": "Ownership model of the allocator. True for with_*_buffer, Vec<F> and Box<[F]>; false for Box<[i8]>, Box<[i16]>, Box<[f32]>, Box<[f64]> of every audio that is not empty: the frames are not forgotten, so the box dangles: use after free and double free (C54_false). C54_owns characterises ownership by what the allocator accepts. C54_bytes ties the sizes used by both conversions to those of i8, i16, f32, f64."
  },
  {
   "property": "C55",
   "status": "proved",
   "theorems": [
    "Fon.C55_panics_iff",
    "Fon.C55_slice"
   ],
   "note": "All range forms."
  },
  {
   "property": "C56",
   "status": "proved",
   "theorems": [
    "Fon.C56_fills"
   ],
   "note": "Buffers up to 2^53 frames."
  },
  {
   "property": "C57",
   "status": "partial",
   "theorems": [
    "Fon.C57_iff",
    "Fon.C57_false",
    "Fon.C57_partial"
   ],
   "note": "False as stated: a sink of rate 0 never returns (C57_false). C57_iff: the exact condition, for all rates and offsets, infinities and NaN included. C57_partial: for a positive ratio, an explicit bound on the number of iterations."
  },
  {
   "property": "C58",
   "status": "proved",
   "theorems": [
    "Fon.C58_mix"
   ],
   "note": "Complete functional description of Sink::stream, all inputs; `mixed` and `leftOver` in Spec/Sink.lean say what each slot gets."
  },
  {
   "property": "C59",
   "status": "proved",
   "theorems": [
    "Fon.C59_box",
    "Fon.C59_mean",
    "Fon.C59_whole"
   ],
   "note": "Rate ratios up to 1, fresh resampler, buffers up to ratio*2^52 frames, samples in [-1,1]; explicit error bound. C59_whole says the same of the whole stream, whatever part of it is taken. C59_mean: when the rate is divided by N, a slot is the mean of N frames. For ratios above 1 see C45_false."
  },
  {
   "property": "C60",
   "status": "partial",
   "theorems": [
    "Fon.C60_iff",
    "Fon.C60_false"
   ],
   "note": "False as stated: raw buffers are not clamped (C60_false). C60_iff: in range exactly if the samples were."
  },
  {
   "property": "C61",
   "status": "partial",
   "theorems": [
    "Fon.C61_setRate",
    "Fon.C61_actual",
    "Fon.C61_false",
    "Fon.C61_partial"
   ],
   "note": "False as stated: the offset moves on by one per call but the range of a one-frame stream is always slot 0, so every frame after the first is lost and slot 0 is cleared (C61_actual, C61_false). C61_partial: true for one frame."
  },
  {
   "property": "C62",
   "status": "proved",
   "theorems": [
    "Fon.C62_neutral",
    "Fon.C62_div_self"
   ],
   "note": "C62_neutral (all formats; float samples that are finite), C62_div_self."
  },
  {
   "property": "C63",
   "status": "proved",
   "theorems": [
    "Fon.C63_add",
    "Fon.C63_sub",
    "Fon.C63_mul",
    "Fon.C63_neg",
    "Fon.C63_lerp"
   ],
   "note": "C63_add, C63_sub, C63_mul, C63_neg, C63_lerp: one statement for all formats, on samples with a level."
  },
  {
   "property": "C64",
   "status": "partial",
   "theorems": [
    "Fon.C64_ch8",
    "Fon.C64_ch16",
    "Fon.C64_float_partial",
    "Fon.C64_false"
   ],
   "note": "Proved for Ch8 and Ch16 (C64_ch8, C64_ch16); false for floats by rounding (C64_false); C64_float_partial bounds the overshoot by two roundings on one side and shows none on the other."
  },
  {
   "property": "C65",
   "status": "partial",
   "theorems": [
    "Fon.C65_ch8_partial",
    "Fon.C65_ch16_partial",
    "Fon.C65_float",
    "Fon.C65_false",
    "Fon.C65_sign"
   ],
   "note": "False for exactly one pair of each integer format, MAX*MIN = MIN (C65_false); C65_ch8_partial and C65_ch16_partial cover every other pair; floats proved (C65_float), signs proved (C65_sign)."
  },
  {
   "property": "C66",
   "status": "partial",
   "theorems": [
    "Fon.C66_partial",
    "Fon.C66_orders",
    "Fon.C66_false",
    "Fon.C66_ch8_iff",
    "Fon.C66_ch16_iff",
    "Fon.C66_side"
   ],
   "note": "False once a partial sum saturates, for every format (C66_false). C66_partial and C66_orders: true up to rounding while no partial sum leaves the range. C66_ch8_iff and C66_ch16_iff say exactly for which samples every order gives the same: the positive ones alone and the negative ones alone do not clip, or all are on the same side of zero. C66_side: samples on the same side of zero give their sum, kept in range, in every format."
  },
  {
   "property": "C67",
   "status": "partial",
   "theorems": [
    "Fon.C67_int",
    "Fon.C67_float",
    "Fon.C67_widen_partial",
    "Fon.C67_via_f64",
    "Fon.C67_narrow_partial",
    "Fon.C67_narrow_iff",
    "Fon.C67_false",
    "Fon.C67_ch32_iff",
    "Fon.C67_ch64_iff"
   ],
   "note": "False for some pairs (C67_false). C67_int, C67_float: equality for integer-to-integer and float-to-float; C67_widen_partial bounds integer-to-float, and C67_ch32_iff and C67_ch64_iff list the exceptions for 8 bit samples; float-to-integer is at most one step off (C67_narrow_partial), and C67_narrow_iff says exactly when it is equal."
  },
  {
   "property": "C68",
   "status": "partial",
   "theorems": [
    "Fon.C68_partial",
    "Fon.C68_false",
    "Fon.C68_saturates"
   ],
   "note": "Proved for floats (C68_partial); false for the integer formats (C68_false), whose division scales by 256/65536 instead of 127/32767."
  },
  {
   "property": "C69",
   "status": "proved",
   "theorems": [
    "Fon.C69_add",
    "Fon.C69_sub",
    "Fon.C69_mul",
    "Fon.C69_neg",
    "Fon.C69_lerp"
   ],
   "note": "C69_add, C69_sub, C69_mul, C69_neg, C69_lerp; the steps are those of the format (ulp of Spec)."
  },
  {
   "property": "C70",
   "status": "partial",
   "theorems": [
    "Fon.C70_order",
    "Fon.C70_partial",
    "Fon.C70_int",
    "Fon.C70_false",
    "Fon.C70_frame"
   ],
   "note": "False for NaN in float formats although Eq is implemented (C70_false); C70_partial: true for every sample holding a number; C70_int, C70_frame proved."
  },
  {
   "property": "C71",
   "status": "proved",
   "theorems": [
    "Fon.C71_idempotent",
    "Fon.C71_all"
   ],
   "note": "C71_idempotent for finite numbers, C71_all also for NaN and infinities."
  },
  {
   "property": "C72",
   "status": "proved",
   "theorems": [
    "Fon.C72_error",
    "Fon.C72_mono",
    "Fon.C72_onto",
    "Fon.C72_fibre"
   ],
   "note": "C72_mono, C72_onto, C72_fibre, C72_error: for all 65536 samples, by arithmetic, not by enumeration."
  },
  {
   "property": "C73",
   "status": "proved",
   "theorems": [
    "Fon.C73_step"
   ],
   "note": "C73_step for all sixteen pairs of formats."
  },
  {
   "property": "C74",
   "status": "proved",
   "theorems": [
    "Fon.C74_gapless",
    "Fon.C74_plays"
   ],
   "note": "C74_gapless (concatenation and rest), C74_plays (the runs return)."
  },
  {
   "property": "C75",
   "status": "partial",
   "theorems": [
    "Fon.C75_partial",
    "Fon.C75_any"
   ],
   "note": "C75_partial: needs rate*length to be representable, the same limit as C50 (C50_false shows the failure otherwise). C75_any: at every normal rate, the streams in order with a silent frame after a stream exactly where C50_iff says so."
  },
  {
   "property": "C76",
   "status": "partial",
   "theorems": [
    "Fon.C76_actual",
    "Fon.C76_false"
   ],
   "note": "False (C76_false); C76_actual: the whole start of the next buffer is silence, as the offset is kept relative to the old buffer."
  },
  {
   "property": "C77",
   "status": "partial",
   "theorems": [
    "Fon.C77_stream",
    "Fon.C77_partial",
    "Fon.C77_panics",
    "Fon.C77_false",
    "Fon.C77_short"
   ],
   "note": "False if len is None and the stream ends (C77_panics, C77_false). C77_partial: any reported length is fine. C77_short: what a short stream leaves."
  },
  {
   "property": "C78",
   "status": "partial",
   "theorems": [
    "Fon.C78_actual",
    "Fon.C78_partial",
    "Fon.C78_false"
   ],
   "note": "Source frames stay in place for the integer formats, but the slots between are silent and floats are N times too loud (C78_actual, C78_false). C101 has all other ratios above 1."
  },
  {
   "property": "C79",
   "status": "proved",
   "theorems": [
    "Fon.C79_take_blend",
    "Fon.C79_stream",
    "Fon.C79_take_left",
    "Fon.C79_ops",
    "Fon.C79_comm"
   ],
   "note": "C79_take_blend, C79_take_left, C79_stream, C79_ops, C79_comm."
  },
  {
   "property": "C80",
   "status": "proved",
   "theorems": [
    "Fon.C80_local"
   ],
   "note": "C80_local: two streams that differ in one frame."
  },
  {
   "property": "C81",
   "status": "proved",
   "theorems": [
    "Fon.C81_mono"
   ],
   "note": "For ratios from 0 to 2^99 and offsets >= 0."
  },
  {
   "property": "C82",
   "status": "proved",
   "theorems": [
    "Fon.C82_channel"
   ],
   "note": "C82_channel: two streams and two sinks that agree in one channel only."
  },
  {
   "property": "C83",
   "status": "partial",
   "theorems": [
    "Fon.C83_int",
    "Fon.C83_int_tight",
    "Fon.C83_not",
    "Fon.C83_float",
    "Fon.C83_false"
   ],
   "note": "Holds for the float formats (C83_float). False for the integer formats (C83_false): ! maps 0 to -1, and weights round towards zero. C83_int: there opposite numbers give opposite results to within one unit, at every ratio up to 2^99; C83_not: with ! the error is at most one unit for each time a frame is added."
  },
  {
   "property": "C84",
   "status": "proved",
   "theorems": [
    "Fon.C84_schedule"
   ],
   "note": "C84_schedule: two streams of any formats and layouts with the same rate and length."
  },
  {
   "property": "C85",
   "status": "partial",
   "theorems": [
    "Fon.C85_partial",
    "Fon.C85_false"
   ],
   "note": "False exactly (C85_false). C85_partial: when downsampling it holds up to the error bound of C59 for each of the three runs. C105_superpose: the same for upsampling, if nothing clips."
  },
  {
   "property": "C86",
   "status": "partial",
   "theorems": [
    "Fon.C86_partial",
    "Fon.C86_false"
   ],
   "note": "False when downsampling (C86_false): of ten frames from 48000 to 8000 Hz, four stay in the drained audio although a slot was added for them, and that slot is silent; of four frames from 16000 to 8000 Hz the last is taken but not heard. C86_partial (whole rates): less than one destination frame's worth stays behind, nothing if the rate does not go down."
  },
  {
   "property": "C87",
   "status": "proved",
   "theorems": [
    "Fon.C87_stereo",
    "Fon.C87_sawtooth"
   ],
   "note": "C87_sawtooth for every content of the 256 frames; C87_stereo for every rate and length."
  },
  {
   "property": "C88",
   "status": "proved",
   "theorems": [
    "Fon.C88_conv",
    "Fon.C88_add",
    "Fon.C88_sub",
    "Fon.C88_mul",
    "Fon.C88_neg",
    "Fon.C88_false"
   ],
   "note": "C88_conv: at most 3 units of the new format. C88_add, C88_sub, C88_mul and C88_neg: at most 10, 10, 13 and 6 units of the new format, plus 1, 1, 4 and 0 of the old one. C88_false: the results are not equal in general."
  },
  {
   "property": "C89",
   "status": "partial",
   "theorems": [
    "Fon.C89_leftOver",
    "Fon.C89_partial",
    "Fon.C89_false"
   ],
   "note": "False in general (C89_false): of ten frames from 48000 to 8000 Hz the second slot, which covers the second to the seventh frame, is silent. C89_partial (whole rates) is exact: every slot gets the mean over its time of the frames that are used, but the last slot is silent if it is past the end of the signal (rounded down) and the used frames end with a slot; C89_leftOver is the same for the left-over frame. C104 is the claim for higher rates."
  },
  {
   "property": "C90",
   "status": "proved",
   "theorems": [
    "Fon.C90_add",
    "Fon.C90_sub",
    "Fon.C90_mul",
    "Fon.C90_div_panics"
   ],
   "note": "C90_add, C90_sub: at most 4 units of the left format from the clamped sum or difference of the levels. C90_mul: at most 7 units. C90_div_panics: exactly when division panics."
  },
  {
   "property": "C91",
   "status": "partial",
   "theorems": [
    "Fon.C91_clamps",
    "Fon.C91_partial",
    "Fon.C91_nan",
    "Fon.C91_false"
   ],
   "note": "False in general (C91_false): the number is clamped to [-1, 1] first, so -1 + 2.0 is 0 and 0.25 * 2.0 is 0.25. C91_partial: true for numbers in [-1, 1]. C91_clamps: the result for every finite number. C91_nan: NaN counts as 1."
  },
  {
   "property": "C92",
   "status": "partial",
   "theorems": [
    "Fon.C92_stream",
    "Fon.C92_extend",
    "Fon.C92_partial",
    "Fon.C92_lost",
    "Fon.C92_extend_lost",
    "Fon.C92_drain",
    "Fon.C92_false"
   ],
   "note": "False (C92_false): 7 frames drained at 7 Hz into an audio of 29 Hz make extend panic, and both audios are empty afterwards; C92_extend_lost: after any panic of extend the audio is empty with rate 0. C92_partial: after any call of stream the drained audio lacks only frames at the front, and the sink is unchanged outside the destination range. C92_lost, C92_drain: a panic of stream loses exactly the one frame in work. C92_stream, C92_extend: agreement with the model used elsewhere."
  },
  {
   "property": "C93",
   "status": "partial",
   "theorems": [
    "Fon.C93_partial",
    "Fon.C93_stereo",
    "Fon.C93_false"
   ],
   "note": "The sign claim is false (C93_false): the largest sample of any format panned fully right comes out of the left Stereo speaker inverted, at half level or more, because positions beyond the outermost speaker continue the angle past 90 degrees. C93_partial: a^2 + b^2 = p^2 within 4 (7 ulp + eps), for every layout with speakers at least 2^-20 apart, at every position, other speakers silent; eps is the precision of sine and cosine. C93_stereo: in Stereo from the left speaker rightwards the levels are p cos and p sin of (x + 1/2) 90 degrees. exists_near: functions with eps = 2^-52 exist."
  },
  {
   "property": "C94",
   "status": "partial",
   "theorems": [
    "Fon.C94_panics_iff",
    "Fon.C94_actual",
    "Fon.C94_false",
    "Fon.C94_false_differ",
    "Fon.C94_partial",
    "Fon.C94_closed"
   ],
   "note": "False: both programs panic on every file that is one second long (C94_false), and a two frame file gives different samples (C94_false_differ). C94_panics_iff: they panic exactly if the file has no whole number of frames, or 147 divides the number l of frames and round(round(160/147) l) exceeds 160 l / 147; without rounding, D = 160 l / 147 has 13 D > 16 * 2^(floor(log2 D)) (C94_closed). C94_actual: otherwise the second program writes what the first does with the first frame silenced. C94_partial: no panic and the right length if 147 does not divide l."
  },
  {
   "property": "C95",
   "status": "partial",
   "theorems": [
    "Fon.C95_sign",
    "Fon.C95_partial",
    "Fon.C95_false",
    "Fon.C95_local"
   ],
   "note": "The bound is false when the rate goes up: floats get N times louder (C95_false). C95_partial: it holds when the rate does not go up, up to the accuracy of C59. C95_local: every slot but the first stays between the lowest and highest of the frames played during it. C95_sign: signs are kept exactly, at every ratio, in every format, from every position. C105_loud: above ratio 1 no slot is louder than the ratio times the loudest frame."
  },
  {
   "property": "C96",
   "status": "partial",
   "theorems": [
    "Fon.C96_partial",
    "Fon.C96_false"
   ],
   "note": "False for integer formats when the rate goes up (C96_false): weights above 1 saturate. C96_partial: it holds when the rate does not go up, up to the accuracy of each slot, for every format and layout. C105_sum: for upsampling, if nothing clips."
  },
  {
   "property": "C97",
   "status": "proved",
   "theorems": [
    "Fon.C97_places",
    "Fon.C97_order"
   ],
   "note": "C97_places gives each position, C97_order the order and symmetry."
  },
  {
   "property": "C98",
   "status": "partial",
   "theorems": [
    "Fon.C98_false",
    "Fon.C98_actual",
    "Fon.C98_downmix"
   ],
   "note": "False (C98_false): stereo is heard from the documented rear left (channel 1) and front right (channel 3). C98_actual, C98_downmix: the code goes by the order of the comments beside CONFIG: rear left, front left, center, front right, rear right, LFE."
  },
  {
   "property": "C99",
   "status": "proved",
   "theorems": [
    "Fon.C99_new",
    "Fon.C99_own",
    "Fon.C99_raw",
    "Fon.C99_toRaw"
   ],
   "note": "C99_new for levels, C99_own for samples of the same format and from_channels, C99_raw and C99_toRaw for raw numbers, including NaN (becomes 1) and the infinities."
  },
  {
   "property": "C100",
   "status": "proved",
   "theorems": [
    "Fon.C100_range",
    "Fon.C100_before",
    "Fon.C100_meta"
   ],
   "note": "C100_range; C100_meta (rate, length); C100_before: with the cursor before the start of the range it gives nothing, so a constructor that sets it to 0 would be wrong. The code makes no AudioStream."
  },
  {
   "property": "C101",
   "status": "proved",
   "theorems": [
    "Fon.C101_whole",
    "Fon.C101_mix",
    "Fon.C101_silent",
    "Fon.C101_const"
   ],
   "note": "C101_mix (value and spacing of frames), C101_silent, C101_const. C101_whole says the same of the whole stream. With C59 (ratio at most 1) this covers every ratio."
  },
  {
   "property": "C102",
   "status": "partial",
   "theorems": [
    "Fon.C102_pulse",
    "Fon.C102_partial",
    "Fon.C102_false",
    "Fon.C102_any",
    "Fon.C102_total",
    "Fon.C102_multiple",
    "Fon.C102_with"
   ],
   "note": "C102_partial says exactly what comes back: float samples cut off at 1/N (so quiet ones come back bit for bit), integer samples multiplied by floor(127.5/N)/127 or floor(32767.5/N)/32767. C102_pulse: downsampling a signal that is silent but for every N-th frame. False in general (C102_false): Ch8 100, -50, 127 come back as 49, -24, 63; Ch64 0.75 and -1 as 0.5 and -0.5. C102_any: for any ratio r >= 1 a quiet signal comes back with the part backOwn of every frame in its own slot and the parts backPrev, backNext in the slots beside it (Spec/ThereBack), up to the errors of both runs; C102_total: these sum up to 1 in the float formats; C102_multiple: for whole ratios quiet float samples come back, integer samples are divided by the ratio. C102_with: the same for Audio::with_stream to a higher whole rate and back, for all but the last two frames."
  },
  {
   "property": "C103",
   "status": "proved",
   "theorems": [
    "Fon.C103_chan",
    "Fon.C103_ceil",
    "Fon.C103_mix",
    "Fon.C103_extend",
    "Fon.C103_stream"
   ],
   "note": "C103_chan, C103_ceil, C103_mix, C103_extend, C103_stream: the functions that contain +, - or * on integers. The panics can be different ones: when the length overflows in extend, a debug build panics on the addition, a release build cuts frames off and panics in sink."
  },
  {
   "property": "C104",
   "status": "proved",
   "theorems": [
    "Fon.C104_up"
   ],
   "note": "C104_up. With C89 this covers the contents of with_stream for all whole rates."
  },
  {
   "property": "C105",
   "status": "proved",
   "theorems": [
    "Fon.C105_loud",
    "Fon.C105_superpose",
    "Fon.C105_sum",
    "Fon.C105_sum_float"
   ],
   "note": "C105_loud, C105_superpose, C105_sum, C105_sum_float. With C85, C95, C96 (ratio at most 1) this covers every ratio for quiet signals; loud ones clip (C85_false, C95_false, C96_false)."
  },
  {
   "property": "C106",
   "status": "proved",
   "theorems": [
    "Fon.C106_down",
    "Fon.C106_layout",
    "Fon.C106_panics",
    "Fon.C106_average"
   ],
   "note": "C106_layout, C106_panics. C106_average shows that averaging to mono does not commute when upsampling: it clips in another place. C106_down: when downsampling it commutes up to an explicit error."
  },
  {
   "property": "C107",
   "status": "proved",
   "theorems": [
    "Fon.C107_back",
    "Fon.C107_int"
   ],
   "note": "C107_back; C107_int: integer audio is equal. Rates where the product is rounded may add a frame (C50_false)."
  },
  {
   "property": "C108",
   "status": "proved",
   "theorems": [
    "Fon.C108_down",
    "Fon.C108_up",
    "Fon.C108_clips"
   ],
   "note": "C108_down, C108_up; C108_clips: a sum that clips makes a difference."
  },
  {
   "property": "C109",
   "status": "proved",
   "theorems": [
    "Fon.C109_length",
    "Fon.C109_channel",
    "Fon.C109_mono",
    "Fon.C109_invert",
    "Fon.C109_silence"
   ],
   "note": "C109_length, C109_channel, C109_mono, C109_invert (float formats: C83_false shows why), C109_silence"
  },
  {
   "property": "C110",
   "status": "proved",
   "theorems": [
    "Fon.C110_new",
    "Fon.C110_restore",
    "Fon.C110_after",
    "Fon.C110_index"
   ],
   "note": "C110_new, C110_restore, C110_after, C110_index. The documentation calls index() the left over partial index, but it counts from the start of the buffer that was filled, see C76."
  },
  {
   "property": "C111",
   "status": "proved",
   "theorems": [
    "Fon.C111_new",
    "Fon.C111_history",
    "Fon.C111_slice",
    "Fon.C111_extend",
    "Fon.C111_vec",
    "Fon.C111_drain"
   ],
   "note": "C111_new, C111_history, C111_slice, C111_extend, C111_drain, C111_vec, over a model of the VecDeque of the standard library (Rust 1.67 and later; older ones round the capacity up to a power of two). The documentation of as_slice says it may have to re-arrange memory after drain(): it never does. Turning the buffer into a Vec does, after drain (C111_vec)."
  },
  {
   "property": "C112",
   "status": "proved",
   "theorems": [
    "Fon.Gen.C112_param",
    "Fon.Gen.C112_builtin",
    "Fon.Gen.C112_lawful",
    "Fon.Gen.C112_flush",
    "Fon.Gen.C112_returns",
    "Fon.Gen.C112_takes",
    "Fon.Gen.C112_shrinks"
   ],
   "note": "C112_param is the simulation (panics included), C112_builtin ties the generic model to the one of the other claims, C112_lawful and C112_flush carry every other theorem over to lawful sinks, C112_returns and C112_takes need no law but a fixed number of slots and an index that stays. C112_shrinks: a sink whose buffer loses slots makes stream panic."
  },
  {
   "property": "C113",
   "status": "partial",
   "theorems": [
    "Fon.Heap.C113_partial",
    "Fon.Heap.C113_builtin",
    "Fon.Heap.C113_iff",
    "Fon.Heap.C113_false",
    "Fon.Heap.C113_slice"
   ],
   "note": "False as stated: Frame is a safe trait and the type is not checked (C113_false): a frame type with a larger alignment is freed with the wrong layout, one with a bool is made from bytes that are no bool. C113_iff: no undefined behaviour exactly for types with the alignment of the samples of which all bytes are values; C113_slice: viewing as samples is fine exactly for types without padding; C113_builtin: the types of the crate are such types."
  },
  {
   "property": "C114",
   "status": "partial",
   "theorems": [
    "Fon.C114_partial",
    "Fon.C114_false",
    "Fon.C114_up",
    "Fon.C114_up_false",
    "Fon.C114_usual",
    "Fon.C114_down"
   ],
   "note": "Proved bit for bit for all ratios a / 2^m (C114_partial), including the frame left over. False for other ratios (C114_false): positions are rounded products, so the weights of delayed frames differ in the last bits. C114_down: at every ratio up to 1 it holds up to an explicit error. C114_up: between whole rates at every ratio from 1 up that is not rounded down by more than its 2^54th part, the same; all pairs of usual rates are so (usual_near, C114_usual). Where the ratio is rounded down by more it is false by far (C114_up_false, from rate 11 to rate 15)."
  },
  {
   "property": "C115",
   "status": "proved",
   "theorems": [
    "Fon.C115_channel",
    "Fon.C115_panics_iff",
    "Fon.C115_builtin",
    "Fon.C115_pan",
    "Fon.C115_stream",
    "Fon.C115_replaced"
   ],
   "note": "User operations are pure functions; they may panic and may replace mix_frames (Blend.custom). C115_replaced: a replaced mix_frames decides alone."
  },
  {
   "property": "C116",
   "status": "proved",
   "theorems": [
    "Fon.C116_mean",
    "Fon.C116_int"
   ],
   "note": "C116_mean for all pairs of formats, C116_int for the integer formats."
  },
  {
   "property": "C117",
   "status": "partial",
   "theorems": [
    "Fon.C117_near",
    "Fon.C117_partial",
    "Fon.C117_false",
    "Fon.C117_up",
    "Fon.C117_up_false",
    "Fon.C117_withStream",
    "Fon.C117_withStream_int"
   ],
   "note": "C117_partial: up to an explicit error, for every first ratio up to 1 if the second factor is whole; in integer formats no intermediate sample may be the lowest number. False for other second factors (C117_false, from rate 6 to 3 to 2). C117_near: for all second factors the two ways differ by no more than the signal does around the slot, but for the first slot. C117_up: for higher rates it holds for whole factors, exactly in the integer formats and if the first factor is a power of two, otherwise up to rounding; C117_up_false: not for other factors, by far (from 4 to 6 to 9 Hz). C117_withStream: C117_up for Audio::with_stream, in every slot; C117_withStream_int: in the integer formats both ways give the same audio."
  },
  {
   "property": "C118",
   "status": "partial",
   "theorems": [
    "Fon.C118_any",
    "Fon.C118_partial",
    "Fon.C118_false",
    "Fon.C118_iter",
    "Fon.C118_actual"
   ],
   "note": "C118_partial: for resamplers with an offset that is not negative. C118_any gives the result for all resamplers, C118_iter for iteration without a sink. False for a negative offset (C118_false), and for iteration up to None, where the first part of a blend loses a frame that was not yielded (C118_actual)."
  },
  {
   "property": "C119",
   "status": "partial",
   "theorems": [
    "Fon.C119_fuel",
    "Fon.C119_agree",
    "Fon.C119_finite_partial",
    "Fon.C119_ratio_partial",
    "Fon.C119_overflow",
    "Fon.C119_false",
    "Fon.C119_iff"
   ],
   "note": "C119_finite_partial: true for streams of less than 2^64 - 1 frames; C119_ratio_partial: true for all streams, if the ratio is at least the length of the buffer over 2^63. C119_agree: up to 2^64 - 1 iterations both builds agree with the model used elsewhere. C119_iff: the exact condition for endless streams. False for endless streams at a lower ratio (C119_overflow, C119_false): the debug build panics, the release build never returns."
  },
  {
   "property": "C120",
   "status": "partial",
   "theorems": [
    "Fon.C120_none",
    "Fon.C120_safe",
    "Fon.C120_partial",
    "Fon.C120_actual",
    "Fon.C120_false"
   ],
   "note": "C120_none: no frame ever comes after None; C120_safe: streams of built-in layouts and operations do not panic either. C120_partial: and buffers lose nothing, if none is drained in the first part of a blend. False otherwise (C120_false): C120_actual: every further call takes a frame out of a longer first buffer."
  },
  {
   "property": "C121",
   "status": "partial",
   "theorems": [
    "Fon.C121_release",
    "Fon.C121_panics",
    "Fon.C121_debug",
    "Fon.C121_wide",
    "Fon.C121_false",
    "Fon.C121_extend"
   ],
   "note": "C121_release: the same without overflow checks. With them every panic is the same (C121_panics), and so is every result unless the stream ends past the largest usize between two slots (C121_debug); then ceil_usize overflows and the call panics (C121_false, witness at 32 bits), which cannot happen with 64 bits (C121_wide). C121_extend: extend gives the same result in both builds exactly if that fits into the memory."
  },
  {
   "property": "C122",
   "status": "proved",
   "theorems": [
    "Fon.C122_nearest",
    "Fon.C122_unique",
    "Fon.C122_arith",
    "Fon.C122_convert",
    "Fon.C122_rem",
    "Fon.C122_nan",
    "Fon.C122_sign",
    "Fon.C122_inf",
    "Fon.C122_order",
    "Fon.C122_trunc",
    "Fon.C122_f64",
    "Fon.C122_f32"
   ],
   "note": "About the model of floats under every other claim, not about a function of the crate. C122_nearest, C122_unique: the rounding of the model is the only one to nearest with ties to even. C122_arith, C122_convert, C122_rem: each operation rounds its exact result once; remainders are exact. C122_nan, C122_inf, C122_sign, C122_order, C122_trunc: the cases IEEE 754 sets apart. C122_f64, C122_f32: the values are those of the 64 and 32 bits, one to one except NaN, which the model has once."
  },
  {
   "property": "C123",
   "status": "proved",
   "theorems": [
    "Fon.C123_signed",
    "Fon.C123_checked",
    "Fon.C123_saturating",
    "Fon.C123_div",
    "Fon.C123_min_max",
    "Fon.C123_widen_narrow",
    "Fon.C123_shift"
   ],
   "note": "About the model of integers under every other claim, not about a function of the crate. C123_signed: bits and numbers are one to one. C123_checked, C123_saturating, C123_div, C123_min_max, C123_widen_narrow, C123_shift: each operation against its definition on numbers; division panics exactly for a zero divisor and for the lowest number over -1."
  },
  {
   "property": "C124",
   "status": "proved",
   "theorems": [
    "Fon.Gen.C124_keeps",
    "Fon.Gen.C124_closed",
    "Fon.Gen.C124_lost",
    "Fon.Gen.C124_builtin",
    "Fon.Gen.C124_panics_iff"
   ],
   "note": "C124_keeps and C124_closed (returned calls), C124_lost (panics). C124_builtin: for the frames and streams of the crate this is the model of C48 to C51. C124_panics_iff: with frames and a stream that do not panic themselves and a stream of the length it says, the panics are those of C51_iff and no others. Implementations are functions: state that they share with their surroundings is not in the model."
  },
  {
   "property": "C125",
   "status": "proved",
   "theorems": [
    "Fon.C125_iter",
    "Fon.C125_stream",
    "Fon.C125_dropped",
    "Fon.C125_again"
   ],
   "note": "C125_iter and C125_stream (leaked), C125_dropped (what dropping does, as a relation between the two), C125_again: draining again yields the same frames. So leaking is safe, unlike for a drain that empties the vector at once."
  },
  {
   "property": "C126",
   "status": "proved",
   "theorems": [
    "Fon.Gen.C126_take",
    "Fon.Gen.C126_take_plays",
    "Fon.Gen.C126_blend_plays",
    "Fon.Gen.C126_panics_iff",
    "Fon.Gen.C126_builtin_take",
    "Fon.Gen.C126_builtin_blend",
    "Fon.Gen.C126_take_param",
    "Fon.Gen.C126_returns"
   ],
   "note": "C126_take (panics included), C126_take_plays, C126_blend_plays, C126_panics_iff. C126_take_param: laws for pairs of streams carry over. C126_returns: together with C112_returns, sinks play such blends. C126_builtin_take, C126_builtin_blend: with the streams of the crate these are the adaptors of C31 and C32."
  },
  {
   "property": "C127",
   "status": "proved",
   "theorems": [
    "Fon.Eff.C127_param",
    "Fon.Eff.C127_flush",
    "Fon.Eff.C127_returns",
    "Fon.Eff.C127_takes",
    "Fon.Eff.C127_logged",
    "Fon.Eff.C127_calls"
   ],
   "note": "C127_param, C127_flush, C127_returns, C127_takes. C127_logged: implementations that write down their calls do the same as before; C127_calls: the calls they write down. The example feeds the additions of the sink back to the stream. Destructors are not modelled."
  },
  {
   "property": "C128",
   "status": "proved",
   "theorems": [
    "Fon.Eff.C128_take",
    "Fon.Eff.C128_take_param",
    "Fon.Eff.C128_blend_param",
    "Fon.Eff.C128_blend",
    "Fon.Eff.C128_extend_param",
    "Fon.Eff.C128_lost",
    "Fon.Eff.C128_panics_iff",
    "Fon.Eff.C128_closed",
    "Fon.Eff.C128_keeps"
   ],
   "note": "C128_take; C128_take_param, C128_blend_param, C128_blend, C128_extend_param; C128_keeps, C128_closed, C128_lost without assumptions on the stream; C128_panics_iff: the condition of C51_iff. Destructors are not modelled."
  },
  {
   "property": "C129",
   "status": "partial",
   "theorems": [
    "Fon.C129_iff",
    "Fon.C129_never",
    "Fon.C129_partial",
    "Fon.C129_actual",
    "Fon.C129_false",
    "Fon.C129_sharp"
   ],
   "note": "False in 15 of the 121 directions: from 11025, 22050, 44100, 88200, 176400 Hz to 48000, 96000, 192000 Hz it panics on one second, one minute and one hour of audio (C129_false). C129_actual: in those directions it panics exactly if the resampled length D is whole and 13 D > 16 * 2^(floor(log2 D)). C129_partial: never in the other 106. C129_iff: for all whole rates it panics iff D is whole and the rounding error of the ratio times the stream length is more than half a unit in the last place of D; C129_never: so never if the ratio is rounded up by at most a quarter of a unit. C129_sharp: for whole rates up to 2^16 Hz this is exact: otherwise some whole number of seconds panics."
  },
  {
   "property": "C130",
   "status": "proved",
   "theorems": [
    "Fon.C130_append",
    "Fon.C130_back",
    "Fon.C130_panics",
    "Fon.C130_all",
    "Fon.C130_extra"
   ],
   "note": "C130_append and C130_back for results, C130_panics for panics, C130_all for several calls; C130_extra: the length is the sum of the ceilings, and at most one extra frame for each call but the first. An example shows that the bound is reached."
  },
  {
   "property": "C131",
   "status": "proved",
   "theorems": [
    "Fon.C131_position",
    "Fon.C131_hours",
    "Fon.C131_between",
    "Fon.C131_share",
    "Fon.C131_whole",
    "Fon.C131_local"
   ],
   "note": "C131_position and C131_hours for the position, C131_between and C131_whole for the slots, C131_share for the shares, C131_local for the effect on the buffer. For a sink whose resampler starts at offset 0."
  },
  {
   "property": "C132",
   "status": "proved",
   "theorems": [
    "Fon.C132_first",
    "Fon.C132_panics",
    "Fon.C132_range",
    "Fon.C132_down",
    "Fon.C132_after",
    "Fon.C132_up",
    "Fon.C132_up_false"
   ],
   "note": "C132_first for the samples (equal but for the sign of zeros), C132_panics for the panics, C132_down and C132_up (when the rate goes up) for converting afterwards; C132_up_false: between integer and float formats the order matters when the rate goes up; C132_range and C132_after are the witnesses that the range matters and that converting afterwards is not exact."
  },
  {
   "property": "C133",
   "status": "proved",
   "theorems": [
    "Fon.C133_with",
    "Fon.C133_stable",
    "Fon.C133_power",
    "Fon.C133_up",
    "Fon.C133_only_down"
   ],
   "note": "C133_stable: slots and sum when the rate does not go up; C133_up: slots when it goes up; C133_power: power, C133_with: power of the whole result of with_stream (whole rates). C133_only_down: when the rate goes up the bounds without the factor, and the bound on the power, do not hold."
  },
  {
   "property": "C134",
   "status": "proved",
   "theorems": [
    "Fon.C134_alone",
    "Fon.C134_commute",
    "Fon.C134_overlap"
   ],
   "note": "C134_alone, C134_commute. C134_overlap: for regions that overlap the order matters."
  },
  {
   "property": "C135",
   "status": "proved",
   "theorems": [
    "Fon.C135_steps",
    "Fon.C135_iff",
    "Fon.C135_twice",
    "Fon.C135_false"
   ],
   "note": "C135_steps: also if the frame on the way has the format of the first frame or is Ch64 and the last one has any format, as long as no silence of an integer format is converted to another format and no mean is rounded twice; C135_false shows that these conditions are needed. C135_iff, C135_twice: without a change of format."
  },
  {
   "property": "C136",
   "status": "proved",
   "theorems": [
    "Fon.C136_prefix",
    "Fon.C136_withStream",
    "Fon.C136_take",
    "Fon.C136_extend",
    "Fon.C136_false",
    "Fon.C136_end"
   ],
   "note": "For ratios that are positive numbers and slots of both destinations. C136_false, C136_end: the slot at the position of frame m may differ, as its frame differs or as the stream that ends there has only a part for it."
  },
  {
   "property": "C137",
   "status": "partial",
   "theorems": [
    "Fon.C137_ops",
    "Fon.C137_convert",
    "Fon.C137_blend",
    "Fon.C137_stream",
    "Fon.C137_flush",
    "Fon.C137_extend",
    "Fon.C137_withStream",
    "Fon.C137_mkBlend",
    "Fon.C137_false",
    "Fon.C137_pan"
   ],
   "note": "For streams without Pan. C137_pan: between the speakers of Stereo Pan is symmetric too, up to rounding. C137_false: not in Surround, where no position from -2/3 on gives the mirror image of what another such position gives."
  },
  {
   "property": "C138",
   "status": "partial",
   "theorems": [
    "Fon.C138_partial",
    "Fon.C138_withStream",
    "Fon.C138_first",
    "Fon.C138_false",
    "Fon.C138_down",
    "Fon.C138_up",
    "Fon.C138_usual"
   ],
   "note": "C138_partial, C138_withStream: bit for bit for ratios a / 2^m. C138_down, C138_up: at all ratios up to 1, and at ratios of whole rates above 1 that are not rounded down by more than their 2^54th part, from any format to any format, up to a small error that is stated (C114_up_false: by far not if they are rounded down by more). C138_usual: this covers all usual rates. C138_false: the last bits may differ (from rate 10 to rate 3). C138_first: the very first slot is different, as there is nothing before it."
  },
  {
   "property": "C139",
   "status": "partial",
   "theorems": [
    "Fon.C139_skip",
    "Fon.C139_partial",
    "Fon.C139_seam",
    "Fon.C139_extend",
    "Fon.C139_down",
    "Fon.C139_up",
    "Fon.C139_usual"
   ],
   "note": "True in all slots but one: the first slot of the second piece lacks what the last frames of the first piece would add to it (`C139_seam`), since `extend` starts with a fresh resampler and what the first piece leaves over for a slot outside is dropped. `C139_partial`/`C139_extend`: at ratios a/2^m everything else is equal bit for bit, including the lengths and the slot that `flush` writes; if the rate is multiplied by a whole number (or kept) there is no exception. `C139_skip`: the same for `Sink::stream` with buffers and lengths of any kind. `C139_down`, `C139_up`: at all other ratios up to explicit error bounds, from any format to any format (when the rate goes up, if the ratio is not rounded down by more than its 2^54th part; `C139_usual`: this covers all usual rates)."
  },
  {
   "property": "C140",
   "status": "proved",
   "theorems": [
    "Fon.C140_down",
    "Fon.C140_up",
    "Fon.C140_clips",
    "Fon.C140_rounding"
   ],
   "note": "C140_down (bound 2·(C59 error) + 2 rounding steps), C140_up (bound a few times the rate ratio, if the stream does not clip); C140_clips: a loud upsampled stream is clipped before the gain; C140_rounding: exact equality fails."
  },
  {
   "property": "C141",
   "status": "proved",
   "theorems": [
    "Fon.C141_stream",
    "Fon.C141_with",
    "Fon.C141_up",
    "Fon.C141_cancel",
    "Fon.C141_first"
   ],
   "note": "C141_stream, C141_with (every frame of with_stream), C141_cancel; C141_first shows the exception of the first slot, C141_up that there is no such filter when upsampling."
  },
  {
   "property": "C142",
   "status": "proved",
   "theorems": [
    "Fon.C142_down",
    "Fon.C142_with",
    "Fon.C142_whole",
    "Fon.C142_up_false"
   ],
   "note": "C142_down for Sink::stream, C142_with for Audio::with_stream at whole rates, C142_whole for whole ratios. C142_up_false: when the rate goes up by another ratio (12 Hz to 18 Hz) the result is not the reverse."
  },
  {
   "property": "C143",
   "status": "partial",
   "theorems": [
    "Fon.C143_down",
    "Fon.C143_up",
    "Fon.C143_pan_down",
    "Fon.C143_pan_up",
    "Fon.C143_clips"
   ],
   "note": "False if there is clipping (C143_clips: both channels go to one speaker; one loud frame and one of silence give half of the full level if panned first, and three quarters if resampled first). C143_pan_down, C143_pan_up: true with an explicit error if the levels of the channels add up to a little less than 1 and, when the rate goes up, the stream is quiet enough not to clip while it is resampled. C143_down, C143_up: the same for all effects that are linear in the sense of `LinearAt`."
  },
  {
   "property": "C144",
   "status": "proved",
   "theorems": [
    "Fon.C144_mul_assoc",
    "Fon.C144_distrib",
    "Fon.C144_add_assoc",
    "Fon.C144_volumes",
    "Fon.C144_mix_volume",
    "Fon.C144_mixes",
    "Fon.C144_false"
   ],
   "note": "C144_mul_assoc, C144_distrib, C144_add_assoc for samples; C144_volumes, C144_mix_volume, C144_mixes for streams. C144_false: the bounds of one and two steps are attained, and without the conditions on clipping the results can be far apart."
  },
  {
   "property": "C145",
   "status": "partial",
   "theorems": [
    "Fon.C145_down",
    "Fon.C145_up",
    "Fon.C145_partial",
    "Fon.C145_false",
    "Fon.C145_withStream"
   ],
   "note": "False when the rate goes up, where both the sound and the volume become pulses, and for volumes that change fast (C145_false). C145_partial: true when the rate does not go up, for every slot but the first, with an error of the range of the volumes played during the slot plus an explicit small error. C145_down, C145_up: at any rate a slot has G times the level it has without the volume if the volumes around it are within delta of G, up to delta and a small error (when the rate goes up, for sounds that do not clip). C145_withStream: C145_down for Audio::with_stream at whole rates, all slots but the last."
  },
  {
   "property": "C146",
   "status": "partial",
   "theorems": [
    "Fon.C146_partial",
    "Fon.C146_up",
    "Fon.C146_with",
    "Fon.C146_false"
   ],
   "note": "False when the rate goes up (C146_false: frames of 1/2 become pulses of 1, which have twice the mean square). C146_partial: true for sinks when the rate does not go up, C146_with: the same for Audio::with_stream at whole rates. C146_up: at a ratio r above 1 the sum of the squares is at most r (r + 1) times that of the frames."
  },
  {
   "property": "C147",
   "status": "partial",
   "theorems": [
    "Fon.C147_slope",
    "Fon.C147_partial",
    "Fon.C147_falling",
    "Fon.C147_false",
    "Fon.C147_withStream",
    "Fon.C147_withStream_slope"
   ],
   "note": "False when the rate goes up (C147_false: there are pulses). C147_partial, C147_falling: true when the rate does not go up, for all slots but the first, up to twice the accuracy of the box filter. C147_slope: neighbouring slots differ by at most d (1/r + r/4) if neighbouring frames differ by at most d. C147_withStream, C147_withStream_slope: C147_partial and C147_slope for Audio::with_stream, all slots but the first and the last."
  },
  {
   "property": "C148",
   "status": "partial",
   "theorems": [
    "Fon.C148_partial",
    "Fon.C148_half",
    "Fon.C148_time",
    "Fon.C148_lipschitz",
    "Fon.C148_withStream",
    "Fon.C148_false",
    "Fon.C148_real"
   ],
   "note": "False when the rate goes up (C148_false: there are pulses). True when the rate does not go up, for all slots but the first: C148_partial (in frames and slots), C148_half (the rate divided by a power of two: no loss but rounding), C148_time (in seconds), C148_lipschitz (sounds of bounded slope), C148_withStream (all slots but the first and the last)."
  },
  {
   "property": "C149",
   "status": "partial",
   "theorems": [
    "Fon.C149_whole",
    "Fon.C149_gone",
    "Fon.C149_high",
    "Fon.C149_partial",
    "Fon.C149_false",
    "Fon.C149_withStream"
   ],
   "note": "That tones of more than half the new rate vanish is false (C149_false: a tone of 4 Hz is heard at 6 Hz, like one of 2 Hz). C149_whole: exact level for all whole factors, for all slots but the first, up to rounding. C149_gone: the tones that vanish are those that fit into a slot a whole number of times. C149_high: no tone comes out louder than 1 / (N sin(d / 2)). C149_partial: at every ratio up to 1 a tone keeps frequency and level, up to the square of the angle that it turns in a slot (C148_real is C148 with real numbers). C149_withStream: C149_whole for Audio::with_stream at whole rates, all slots but the first and the last."
  },
  {
   "property": "C150",
   "status": "partial",
   "theorems": [
    "Fon.C150_down",
    "Fon.C150_up",
    "Fon.C150_up_float",
    "Fon.C150_false",
    "Fon.C150_withStream",
    "Fon.C150_withStream_up"
   ],
   "note": "C150_down for all ratios up to 1 and all formats (plus a rounding error per slot). C150_up for ratios above 1 and signals quiet enough not to clip, with the weight that the code gives to each frame; C150_up_float is the property itself for float formats. For integer formats and higher rates it is false (C150_false: the sum is half of what it should be, because the gain of a new slot is cut off at 1). C150_withStream and C150_withStream_up: C150_down and C150_up_float for Audio::with_stream at whole rates, slots before the last."
  },
  {
   "property": "C151",
   "status": "partial",
   "theorems": [
    "Fon.C151_partial",
    "Fon.C151_false",
    "Fon.C151_withStream"
   ],
   "note": "False (C151_false): there is no interpolation, so the tone arrives together with images. C151_partial, for whole factors N: the result is the sum of exactly N tones of the same level, at the frequency of the tone plus all multiples of the old rate below the new rate, up to one rounding. In the float formats each has the level of the tone (if nothing clips), in the integer formats an N-th of it. C151_withStream: C151_partial for Audio::with_stream, in every slot."
  },
  {
   "property": "C152",
   "status": "partial",
   "theorems": [
    "Fon.C152_partial",
    "Fon.C152_false"
   ],
   "note": "False (C152_false): the numbers fall, the first time from -29125 to -29684. About every twelfth slot has no frame of its own and gets only what is left over of its neighbours. C152_partial: the program finishes and prints 558 numbers, the two of each pair equal; the first 69 pairs are within 1964 of the line, and within 23 wherever a frame of the source falls into the slot."
  },
  {
   "property": "C153",
   "status": "partial",
   "theorems": [
    "Fon.C153_partial",
    "Fon.C153_gap",
    "Fon.C153_false"
   ],
   "note": "False (C153_false): at 8 to 12 Hz every third slot has half the level. C153_partial: true, at every ratio from 1 on, for all slots that a frame has its position in; the weights of the frames that reach it add up to one. In the float formats only if the frame comes late enough in the slot, otherwise it is too loud. C153_gap: a slot without a frame of its own gets a part of the frame in the slot before it."
  },
  {
   "property": "C154",
   "status": "partial",
   "theorems": [
    "Fon.C154_partial",
    "Fon.C154_withStream",
    "Fon.C154_false"
   ],
   "note": "False when the rate goes up and when the first slot counts (C154_false: constant signals move). C154_partial: true when the rate does not go up, for every stretch after the first slot, against the frames that are played during the stretch, up to the accuracy of the box filter for each slot. C154_withStream: the same for audio made by with_stream, without its last slot."
  },
  {
   "property": "C155",
   "status": "partial",
   "theorems": [
    "Fon.C155_partial",
    "Fon.C155_withStream",
    "Fon.C155_false"
   ],
   "note": "False when the rate goes up (C155_false). C155_partial: true when the rate does not go up, for all slots but the first that are off the level by more than the accuracy of the box filter; every frame is played during its slot. C155_withStream: the same for with_stream, without the last slot."
  },
  {
   "property": "C156",
   "status": "partial",
   "theorems": [
    "Fon.C156_partial",
    "Fon.C156_abs",
    "Fon.C156_with",
    "Fon.C156_false"
   ],
   "note": "False when the rate goes up (C156_false). C156_partial: true when the rate does not go up, up to a small error for each slot. C156_abs: absolute values, and what exceeds any threshold. C156_with: the same for with_stream, for all slots."
  },
  {
   "property": "C157",
   "status": "partial",
   "theorems": [
    "Fon.C157_lost",
    "Fon.C157_withStream",
    "Fon.C157_all",
    "Fon.C157_all16",
    "Fon.C157_partial",
    "Fon.C157_false",
    "Fon.C157_heard"
   ],
   "note": "False for the integer formats (C157_false: 48000 Hz to 8000 Hz, level 6 of 127). C157_lost, C157_withStream: a channel in which every sample times the ratio is rounded to 0 becomes silence, and nothing is left over. C157_all, C157_all16: to 1/128 (Ch8) or 1/32768 (Ch16) of the rate every signal becomes silence. C157_partial: a slot is not silent if the mean over its time exceeds the bound of C59. C157_heard: C157_partial for Audio::with_stream."
  },
  {
   "property": "C158",
   "status": "partial",
   "theorems": [
    "Fon.C158_trip",
    "Fon.C158_partial",
    "Fon.C158_ch8",
    "Fon.C158_ch16",
    "Fon.C158_ok",
    "Fon.C158_false",
    "Fon.C158_trip_near",
    "Fon.C158_near",
    "Fon.C158_ok_near",
    "Fon.C158_last",
    "Fon.C158_ok_iff",
    "Fon.C158_ok_74",
    "Fon.C158_panics",
    "Fon.C158_48",
    "Fon.C158_usual"
   ],
   "note": "C158_partial: true in the float formats, samples are cut off at 1/N by the first trip and stay as they are. C158_ok: none of the trips panics. False in the integer formats (C158_false: 100, 49, 24). C158_ch8, C158_ch16: every trip multiplies by at most floor(127.5/N)/127 or floor(32767.5/N)/32767, and after seven (Ch8) or fifteen (Ch16) trips there is only silence. These are for powers of two. C158_trip_near, C158_near: for every whole factor N from 2 on every trip of a signal that is quiet enough not to clip changes float samples by at most tripErr (and divides integer samples by N), if the number of frames that fit is not rounded down on the way back, which is needed for the last slot. C158_ok_near: none of these trips panics if 1/N is not rounded up by more than its 2^54th part. C158_ok_iff: the exact condition under which trips do not panic. C158_ok_74: never up to N = 74; C158_panics: at N = 75 seven frames never come back. C158_usual: trips from one usual rate through a multiple that is a usual rate never panic. C158_48: up to N = 48 all of it holds for every number of frames (C158_last: at N = 49 a frame is lost)."
  },
  {
   "property": "C159",
   "status": "partial",
   "theorems": [
    "Fon.C159_stream",
    "Fon.C159_lost",
    "Fon.C159_whole",
    "Fon.C159_pieces",
    "Fon.C159_partial",
    "Fon.C159_false"
   ],
   "note": "False (C159_false: five frames at full level are lost between 48000 and 8000 Hz). C159_stream: if the ratio times the number of frames is less than 1, the stream is not played at all, the index of the resampler stays where it is and nothing is left over. C159_lost: with_stream makes silence of all such streams; C159_whole: at whole rates these are the streams of less than 1 / dst seconds, and the result is one frame of silence. C159_pieces: a sound of any length that is appended in such pieces becomes silence. C159_partial: in the slots that lie in the time of the stream, what is louder than the bound of C59 is heard."
  }
 ]
}