{
 "C01": [
  "proved",
  "Exact clamp of the integer sum and difference; the model has no panic on this path."
 ],
 "C02": [
  "proved",
  "Exact truncated quotient, unit, zero and commutativity."
 ],
 "C03": [
  "partial",
  "Exact for Ch8. False as stated for Ch16: MIN / Ch16(-1) panics with overflow in the i32 division (C03_false); C03_ch16_panics_iff shows this is the only panicking pair and C03_ch16_partial gives the value everywhere else."
 ],
 "C04": [
  "proved",
  "-1-x, involution, antitone, swaps end points; float negation is an involution."
 ],
 "C05": [
  "proved",
  "257c+128, strictly monotone, end points, round trip."
 ],
 "C06": [
  "proved",
  "Round trips for all Ch8 values by a rounding error argument, both float formats."
 ],
 "C07": [
  "proved",
  "Round trips for all Ch16 values by a rounding error argument, both float formats."
 ],
 "C08": [
  "proved",
  "Range, exact end points, strict monotonicity."
 ],
 "C09": [
  "proved",
  "All inputs including NaN, infinities and signed zeros."
 ],
 "C10": [
  "proved",
  "All operand pairs."
 ],
 "C11": [
  "proved",
  "Induction over expression trees."
 ],
 "C12": [
  "partial",
  "from_f64 is monotone and saturating on all inputs. False as stated for From<Ch32>/From<Ch64>: these do not clamp, and -inf or an overflowing product gives 0 (C12_false, C12_false_finite, C12_low). C12_ch64_iff, C12_ch32_iff, exactly: two ordered samples, infinities included, stay in order unless the lower one, scaled, is below all floats and the higher one becomes a negative sample."
 ],
 "C13": [
  "proved",
  "Within 1/255 (1/65535) plus 2^-50 for float rounding."
 ],
 "C14": [
  "proved",
  "All f32 values."
 ],
 "C15": [
  "partial",
  "False as stated: Ch8 silence becomes 128 in Ch16 and 1/255 in float (C15_not). C15_partial and C15_false decide all 16 pairs."
 ],
 "C16": [
  "partial",
  "False as stated for five of the sixteen format pairs (C16_false, C16_not); C16_partial proves agreement for the other eleven."
 ],
 "C17": [
  "partial",
  "MID end point holds everywhere. MAX end point is false as stated when the difference saturates (C17_false) or rounds (C17_false_rounding); exact characterisation for integers; for floats the exact value (C17_max_float_value), an error bound (C17_max_float_partial), equality if one sample is silence or neither is more than twice the other (C17_max_close), and a step of 1 from a distance of 1 on (C17_max_far)."
 ],
 "C18": [
  "proved",
  "All channel values and all frames."
 ],
 "C19": [
  "proved",
  "Channel by channel; division panics exactly when one channel's does."
 ],
 "C20": [
  "proved",
  "All constructors, all slice lengths, all layouts."
 ],
 "C21": [
  "proved",
  "In place conversion, identity, and lossless detours through wider formats, for all values."
 ],
 "C22": [
  "partial",
  "Proved for all Ch8, Ch16, Ch32 samples and all Ch64 samples whose double does not overflow. False as stated for larger Ch64 values, which only from_f64 can make (C22_false). C22_iff: the exact condition, infinities and NaN included."
 ],
 "C23": [
  "partial",
  "Symmetry for all values; betweenness for in-range samples. Betweenness is false for Ch64 samples near the largest f64 (C23_false). C23_iff: the exact condition for samples of any size: it fails only for opposite infinities (into Ch32 and Ch64) and for sums that overflow (into Ch64)."
 ],
 "C24": [
  "proved",
  "Exact layout, all formats."
 ],
 "C25": [
  "proved",
  "Built-in layouts return, custom layouts panic."
 ],
 "C26": [
  "proved",
  "Exact results; Compress panics on any frame with a channel."
 ],
 "C27": [
  "partial",
  "False as stated (C27_false, C27_back): the search stops at the first speaker left of the position, so only speakers 0 and 1 are ever reached from the first speaker to the right end. C27_front_partial proves the claim between the first two speakers, C27_only_two that no other channel is written."
 ],
 "C28": [
  "partial",
  "False as stated: C28_actual gives the actual result for every format (doubled or 1.0)."
 ],
 "C29": [
  "proved",
  "All step counts."
 ],
 "C30": [
  "proved",
  "Induction over stream expressions; no panic for built-in frames without Compress."
 ],
 "C31": [
  "proved",
  "Prefix, take of take, rate."
 ],
 "C32": [
  "proved",
  "Frame by frame, length is the shorter."
 ],
 "C33": [
  "proved",
  "Exact panic condition; the rate of the accepted blend is given by C33_rate (C33_stored for set_sample_rate)."
 ],
 "C34": [
  "partial",
  "False as stated: a frame blended with an audio buffer is accepted and then panics in every sink (C34_false). Proved when the first stream has or stores a rate, or both are configurable. The exact condition is C34_iff."
 ],
 "C35": [
  "proved",
  "Any layouts and formats, any finite stream whose frames convert; lengths up to 2^53 (f64 counts exactly). Out-of-range samples are clamped and NaN/infinite ones become 1 (part of the statement, C35_value). An empty stream still adds the silent left-over frame to slot 0, which clamps a float sample there."
 ],
 "C36": [
  "proved",
  "Every stream, rate, state; slot 0 receives the left-over frame only when the destination range is empty (added then cleared otherwise)."
 ],
 "C37": [
  "proved",
  "All rates including NaN, infinite and negative; all resampler states. Requires the stream's own iterator not to panic (see C34)."
 ],
 "C38": [
  "proved",
  "C38_take gives the exact number of frames taken for every stream; C38_drain the buffer left in a drained Audio; C38_unused says frames not taken have no influence."
 ],
 "C39": [
  "proved",
  "C39_drain for one drain, C39_history for any sequence of drains."
 ],
 "C40": [
  "partial",
  "False as stated: the second call clears the destination range from slot 0 (C40_false, C40_erases). C40_actual says what the second call does."
 ],
 "C41": [
  "partial",
  "False as stated: the left-over frame is added to slot 0 and then cleared, and it stays in the resampler (C41_lost, C41_false). True only for an empty destination range (C41_partial)."
 ],
 "C42": [
  "partial",
  "False as stated: flush panics when the index is at or past the end of the buffer (C42_false). The exact effect and the exact panic condition are proved."
 ],
 "C43": [
  "proved",
  "Every stream, every rate (also NaN and infinite), every resampler state. C43_extend, C43_withStream: also all frames that extend appends."
 ],
 "C44": [
  "partial",
  "False for extreme rates: ratio 1e300 into Ch32 gives 1.0 (C44_false). Proved exactly when the channel format can hold the ratio as a number: always for Ch8 and Ch16, for finite ratios in Ch64, for ratios within f32 in Ch32 (C44_holds); at other ratios the slot of the first frame becomes full scale (C44_loud, C44_iff). Any resampler state, any built-in layouts."
 ],
 "C55": [
  "proved",
  "All range forms."
 ],
 "C56": [
  "proved",
  "Buffers up to 2^53 frames."
 ],
 "C57": [
  "partial",
  "False as stated: a sink of rate 0 never returns (C57_false). C57_iff: the exact condition, for all rates and offsets, infinities and NaN included. C57_partial: for a positive ratio, an explicit bound on the number of iterations."
 ],
 "C45": [
  "partial",
  "False for upsampling: the constant becomes pulses (C45_false). Proved for rate ratios up to 1, every channel format, layout and stream, with an explicit error bound, for all slots but the first, which gets w*ratio (C45_partial); at equal rates the constant arrives unchanged (C45_equal). C101_const has the amplitudes at ratios from 1 to 2."
 ],
 "C46": [
  "partial",
  "False exactly because of rounding (C46_false, shown on a stream). C46_partial, about the result of stream: every frame is shared between the two slots around its position with weights in [0, ratio] whose sum is within half an ulp of the ratio, exactly the ratio if at least half goes to the later slot. C46_iff: the sum is the ratio if and only if the ratio less the weight of the later slot is a float."
 ],
 "C58": [
  "proved",
  "Complete functional description of Sink::stream, all inputs; `mixed` and `leftOver` in Spec/Sink.lean say what each slot gets."
 ],
 "C59": [
  "proved",
  "Rate ratios up to 1, fresh resampler, buffers up to ratio*2^52 frames, samples in [-1,1]; explicit error bound. C59_whole says the same of the whole stream, whatever part of it is taken. C59_mean: when the rate is divided by N, a slot is the mean of N frames. For ratios above 1 see C45_false."
 ],
 "C47": [
  "proved",
  "Constructors, all readers and both writers against indexing; VecDeque is modelled as a list, so a history of operations is a composition of these."
 ],
 "C48": [
  "proved",
  "For every buffer, stream and rate: rate and old frames kept; growth is the float quotient rounded up where a fraction up to the machine epsilon does not count (Growth). C49 relates this to the exact ceiling."
 ],
 "C49": [
  "partial",
  "Exact ceiling for all whole-number rates with n*dst below 2^52 and source rate up to 2^51 (C49_partial). False as stated above that: one frame from 2^53 Hz to 1 Hz gives 0 frames (C49_false). C49_any: at all rates, whole or not, and up to 2^62 frames, the number of frames lies between n*dst/src and n*dst/src + 1, up to 2^-51 * (n*dst/src + 1)."
 ],
 "C50": [
  "partial",
  "Proved (including that it returns) for streams without rate and for equal rates whose product with the length is exact, which covers whole-number rates (C50_partial). False for other rates: three frames at 0.1 Hz become four (C50_false). C50_iff: at every normal rate the converted stream is appended, followed by one silent frame exactly if rate * length, rounded and divided by the rate again, comes out above the length (C50_actual: at most one)."
 ],
 "C51": [
  "partial",
  "False as stated: 147 frames from 44100 to 48000 Hz always panic, whatever the contents and formats (C51_false). C51_iff: exact condition for all rates; C51_int: for whole-number rates it panics iff the resampled length is whole and the float position of the end lies above it (without rounding: C129_iff); C51_partial: never if the length is not whole or the ratio is a float. C51_memory: it also panics when the result would need more than isize::MAX bytes."
 ],
 "C52": [
  "partial",
  "False as stated: infinite streams panic, but the buffer is left empty with rate 0 (C52_actual, C52_false); the same after every other panic (C52_any)."
 ],
 "C53": [
  "proved",
  "All layouts with at least one channel and all four formats; both round trips."
 ],
 "C54": [
  "partial",
  "Ownership model of the allocator. True for with_*_buffer, Vec<F> and Box<[F]>; false for Box<[i8]>, Box<[i16]>, Box<[f32]>, Box<[f64]> of every audio that is not empty: the frames are not forgotten, so the box dangles: use after free and double free (C54_false). C54_owns characterises ownership by what the allocator accepts. C54_bytes ties the sizes used by both conversions to those of i8, i16, f32, f64."
 ],
 "C60": [
  "partial",
  "False as stated: raw buffers are not clamped (C60_false). C60_iff: in range exactly if the samples were."
 ],
 "C61": [
  "partial",
  "False as stated: the offset moves on by one per call but the range of a one-frame stream is always slot 0, so every frame after the first is lost and slot 0 is cleared (C61_actual, C61_false). C61_partial: true for one frame."
 ],
 "C62": [
  "proved",
  "C62_neutral (all formats; float samples that are finite), C62_div_self."
 ],
 "C63": [
  "proved",
  "C63_add, C63_sub, C63_mul, C63_neg, C63_lerp: one statement for all formats, on samples with a level."
 ],
 "C64": [
  "partial",
  "Proved for Ch8 and Ch16 (C64_ch8, C64_ch16); false for floats by rounding (C64_false); C64_float_partial bounds the overshoot by two roundings on one side and shows none on the other."
 ],
 "C65": [
  "partial",
  "False for exactly one pair of each integer format, MAX*MIN = MIN (C65_false); C65_ch8_partial and C65_ch16_partial cover every other pair; floats proved (C65_float), signs proved (C65_sign)."
 ],
 "C66": [
  "partial",
  "False once a partial sum saturates, for every format (C66_false). C66_partial and C66_orders: true up to rounding while no partial sum leaves the range. C66_ch8_iff and C66_ch16_iff say exactly for which samples every order gives the same: the positive ones alone and the negative ones alone do not clip, or all are on the same side of zero. C66_side: samples on the same side of zero give their sum, kept in range, in every format."
 ],
 "C67": [
  "partial",
  "False for some pairs (C67_false). C67_int, C67_float: equality for integer-to-integer and float-to-float; C67_widen_partial bounds integer-to-float, and C67_ch32_iff and C67_ch64_iff list the exceptions for 8 bit samples; float-to-integer is at most one step off (C67_narrow_partial), and C67_narrow_iff says exactly when it is equal."
 ],
 "C68": [
  "partial",
  "Proved for floats (C68_partial); false for the integer formats (C68_false), whose division scales by 256/65536 instead of 127/32767."
 ],
 "C69": [
  "proved",
  "C69_add, C69_sub, C69_mul, C69_neg, C69_lerp; the steps are those of the format (ulp of Spec)."
 ],
 "C70": [
  "partial",
  "False for NaN in float formats although Eq is implemented (C70_false); C70_partial: true for every sample holding a number; C70_int, C70_frame proved."
 ],
 "C71": [
  "proved",
  "C71_idempotent for finite numbers, C71_all also for NaN and infinities."
 ],
 "C72": [
  "proved",
  "C72_mono, C72_onto, C72_fibre, C72_error: for all 65536 samples, by arithmetic, not by enumeration."
 ],
 "C73": [
  "proved",
  "C73_step for all sixteen pairs of formats."
 ],
 "C74": [
  "proved",
  "C74_gapless (concatenation and rest), C74_plays (the runs return)."
 ],
 "C75": [
  "partial",
  "C75_partial: needs rate*length to be representable, the same limit as C50 (C50_false shows the failure otherwise). C75_any: at every normal rate, the streams in order with a silent frame after a stream exactly where C50_iff says so."
 ],
 "C76": [
  "partial",
  "False (C76_false); C76_actual: the whole start of the next buffer is silence, as the offset is kept relative to the old buffer."
 ],
 "C77": [
  "partial",
  "False if len is None and the stream ends (C77_panics, C77_false). C77_partial: any reported length is fine. C77_short: what a short stream leaves."
 ],
 "C78": [
  "partial",
  "Source frames stay in place for the integer formats, but the slots between are silent and floats are N times too loud (C78_actual, C78_false). C101 has all other ratios above 1."
 ],
 "C79": [
  "proved",
  "C79_take_blend, C79_take_left, C79_stream, C79_ops, C79_comm."
 ],
 "C80": [
  "proved",
  "C80_local: two streams that differ in one frame."
 ],
 "C81": [
  "proved",
  "For ratios from 0 to 2^99 and offsets >= 0."
 ],
 "C82": [
  "proved",
  "C82_channel: two streams and two sinks that agree in one channel only."
 ],
 "C83": [
  "partial",
  "Holds for the float formats (C83_float). False for the integer formats (C83_false): ! maps 0 to -1, and weights round towards zero. C83_int: there opposite numbers give opposite results to within one unit, at every ratio up to 2^99; C83_not: with ! the error is at most one unit for each time a frame is added."
 ],
 "C84": [
  "proved",
  "C84_schedule: two streams of any formats and layouts with the same rate and length."
 ],
 "C85": [
  "partial",
  "False exactly (C85_false). C85_partial: when downsampling it holds up to the error bound of C59 for each of the three runs. C105_superpose: the same for upsampling, if nothing clips."
 ],
 "C86": [
  "partial",
  "False when downsampling (C86_false): of ten frames from 48000 to 8000 Hz, four stay in the drained audio although a slot was added for them, and that slot is silent; of four frames from 16000 to 8000 Hz the last is taken but not heard. C86_partial (whole rates): less than one destination frame's worth stays behind, nothing if the rate does not go down."
 ],
 "C87": [
  "proved",
  "C87_sawtooth for every content of the 256 frames; C87_stereo for every rate and length."
 ],
 "C88": [
  "proved",
  "C88_conv: at most 3 units of the new format. C88_add, C88_sub, C88_mul and C88_neg: at most 10, 10, 13 and 6 units of the new format, plus 1, 1, 4 and 0 of the old one. C88_false: the results are not equal in general."
 ],
 "C89": [
  "partial",
  "False in general (C89_false): of ten frames from 48000 to 8000 Hz the second slot, which covers the second to the seventh frame, is silent. C89_partial (whole rates) is exact: every slot gets the mean over its time of the frames that are used, but the last slot is silent if it is past the end of the signal (rounded down) and the used frames end with a slot; C89_leftOver is the same for the left-over frame. C104 is the claim for higher rates."
 ],
 "C90": [
  "proved",
  "C90_add, C90_sub: at most 4 units of the left format from the clamped sum or difference of the levels. C90_mul: at most 7 units. C90_div_panics: exactly when division panics."
 ],
 "C91": [
  "partial",
  "False in general (C91_false): the number is clamped to [-1, 1] first, so -1 + 2.0 is 0 and 0.25 * 2.0 is 0.25. C91_partial: true for numbers in [-1, 1]. C91_clamps: the result for every finite number. C91_nan: NaN counts as 1."
 ],
 "C92": [
  "partial",
  "False (C92_false): 7 frames drained at 7 Hz into an audio of 29 Hz make extend panic, and both audios are empty afterwards; C92_extend_lost: after any panic of extend the audio is empty with rate 0. C92_partial: after any call of stream the drained audio lacks only frames at the front, and the sink is unchanged outside the destination range. C92_lost, C92_drain: a panic of stream loses exactly the one frame in work. C92_stream, C92_extend: agreement with the model used elsewhere."
 ],
 "C93": [
  "partial",
  "The sign claim is false (C93_false): the largest sample of any format panned fully right comes out of the left Stereo speaker inverted, at half level or more, because positions beyond the outermost speaker continue the angle past 90 degrees. C93_partial: a^2 + b^2 = p^2 within 4 (7 ulp + eps), for every layout with speakers at least 2^-20 apart, at every position, other speakers silent; eps is the precision of sine and cosine. C93_stereo: in Stereo from the left speaker rightwards the levels are p cos and p sin of (x + 1/2) 90 degrees. exists_near: functions with eps = 2^-52 exist."
 ],
 "C94": [
  "partial",
  "False: both programs panic on every file that is one second long (C94_false), and a two frame file gives different samples (C94_false_differ). C94_panics_iff: they panic exactly if the file has no whole number of frames, or 147 divides the number l of frames and round(round(160/147) l) exceeds 160 l / 147; without rounding, D = 160 l / 147 has 13 D > 16 * 2^(floor(log2 D)) (C94_closed). C94_actual: otherwise the second program writes what the first does with the first frame silenced. C94_partial: no panic and the right length if 147 does not divide l."
 ],
 "C95": [
  "partial",
  "The bound is false when the rate goes up: floats get N times louder (C95_false). C95_partial: it holds when the rate does not go up, up to the accuracy of C59. C95_local: every slot but the first stays between the lowest and highest of the frames played during it. C95_sign: signs are kept exactly, at every ratio, in every format, from every position. C105_loud: above ratio 1 no slot is louder than the ratio times the loudest frame."
 ],
 "C96": [
  "partial",
  "False for integer formats when the rate goes up (C96_false): weights above 1 saturate. C96_partial: it holds when the rate does not go up, up to the accuracy of each slot, for every format and layout. C105_sum: for upsampling, if nothing clips."
 ],
 "C97": [
  "proved",
  "C97_places gives each position, C97_order the order and symmetry."
 ],
 "C98": [
  "partial",
  "False (C98_false): stereo is heard from the documented rear left (channel 1) and front right (channel 3). C98_actual, C98_downmix: the code goes by the order of the comments beside CONFIG: rear left, front left, center, front right, rear right, LFE."
 ],
 "C99": [
  "proved",
  "C99_new for levels, C99_own for samples of the same format and from_channels, C99_raw and C99_toRaw for raw numbers, including NaN (becomes 1) and the infinities."
 ],
 "C100": [
  "proved",
  "C100_range; C100_meta (rate, length); C100_before: with the cursor before the start of the range it gives nothing, so a constructor that sets it to 0 would be wrong. The code makes no AudioStream."
 ],
 "C101": [
  "proved",
  "C101_mix (value and spacing of frames), C101_silent, C101_const. C101_whole says the same of the whole stream. With C59 (ratio at most 1) this covers every ratio."
 ],
 "C102": [
  "partial",
  "C102_partial says exactly what comes back: float samples cut off at 1/N (so quiet ones come back bit for bit), integer samples multiplied by floor(127.5/N)/127 or floor(32767.5/N)/32767. C102_pulse: downsampling a signal that is silent but for every N-th frame. False in general (C102_false): Ch8 100, -50, 127 come back as 49, -24, 63; Ch64 0.75 and -1 as 0.5 and -0.5. C102_any: for any ratio r >= 1 a quiet signal comes back with the part backOwn of every frame in its own slot and the parts backPrev, backNext in the slots beside it (Spec/ThereBack), up to the errors of both runs; C102_total: these sum up to 1 in the float formats; C102_multiple: for whole ratios quiet float samples come back, integer samples are divided by the ratio. C102_with: the same for Audio::with_stream to a higher whole rate and back, for all but the last two frames."
 ],
 "C103": [
  "proved",
  "C103_chan, C103_ceil, C103_mix, C103_extend, C103_stream: the functions that contain +, - or * on integers. The panics can be different ones: when the length overflows in extend, a debug build panics on the addition, a release build cuts frames off and panics in sink."
 ],
 "C104": [
  "proved",
  "C104_up. With C89 this covers the contents of with_stream for all whole rates."
 ],
 "C105": [
  "proved",
  "C105_loud, C105_superpose, C105_sum, C105_sum_float. With C85, C95, C96 (ratio at most 1) this covers every ratio for quiet signals; loud ones clip (C85_false, C95_false, C96_false)."
 ],
 "C106": [
  "proved",
  "C106_layout, C106_panics. C106_average shows that averaging to mono does not commute when upsampling: it clips in another place. C106_down: when downsampling it commutes up to an explicit error."
 ],
 "C107": [
  "proved",
  "C107_back; C107_int: integer audio is equal. Rates where the product is rounded may add a frame (C50_false)."
 ],
 "C108": [
  "proved",
  "C108_down, C108_up; C108_clips: a sum that clips makes a difference."
 ],
 "C109": [
  "proved",
  "C109_length, C109_channel, C109_mono, C109_invert (float formats: C83_false shows why), C109_silence"
 ],
 "C110": [
  "proved",
  "C110_new, C110_restore, C110_after, C110_index. The documentation calls index() the left over partial index, but it counts from the start of the buffer that was filled, see C76."
 ],
 "C111": [
  "proved",
  "C111_new, C111_history, C111_slice, C111_extend, C111_drain, C111_vec, over a model of the VecDeque of the standard library (Rust 1.67 and later; older ones round the capacity up to a power of two). The documentation of as_slice says it may have to re-arrange memory after drain(): it never does. Turning the buffer into a Vec does, after drain (C111_vec)."
 ],
 "C112": [
  "proved",
  "C112_param is the simulation (panics included), C112_builtin ties the generic model to the one of the other claims, C112_lawful and C112_flush carry every other theorem over to lawful sinks, C112_returns and C112_takes need no law but a fixed number of slots and an index that stays. C112_shrinks: a sink whose buffer loses slots makes stream panic."
 ],
 "C113": [
  "partial",
  "False as stated: Frame is a safe trait and the type is not checked (C113_false): a frame type with a larger alignment is freed with the wrong layout, one with a bool is made from bytes that are no bool. C113_iff: no undefined behaviour exactly for types with the alignment of the samples of which all bytes are values; C113_slice: viewing as samples is fine exactly for types without padding; C113_builtin: the types of the crate are such types."
 ],
 "C114": [
  "partial",
  "Proved bit for bit for all ratios a / 2^m (C114_partial), including the frame left over. False for other ratios (C114_false): positions are rounded products, so the weights of delayed frames differ in the last bits. C114_down: at every ratio up to 1 it holds up to an explicit error. C114_up: between whole rates at every ratio from 1 up that is not rounded down by more than its 2^54th part, the same; all pairs of usual rates are so (usual_near, C114_usual). Where the ratio is rounded down by more it is false by far (C114_up_false, from rate 11 to rate 15)."
 ],
 "C115": [
  "proved",
  "User operations are pure functions; they may panic and may replace mix_frames (Blend.custom). C115_replaced: a replaced mix_frames decides alone."
 ],
 "C116": [
  "proved",
  "C116_mean for all pairs of formats, C116_int for the integer formats."
 ],
 "C117": [
  "partial",
  "C117_partial: up to an explicit error, for every first ratio up to 1 if the second factor is whole; in integer formats no intermediate sample may be the lowest number. False for other second factors (C117_false, from rate 6 to 3 to 2). C117_near: for all second factors the two ways differ by no more than the signal does around the slot, but for the first slot. C117_up: for higher rates it holds for whole factors, exactly in the integer formats and if the first factor is a power of two, otherwise up to rounding; C117_up_false: not for other factors, by far (from 4 to 6 to 9 Hz). C117_withStream: C117_up for Audio::with_stream, in every slot; C117_withStream_int: in the integer formats both ways give the same audio."
 ],
 "C118": [
  "partial",
  "C118_partial: for resamplers with an offset that is not negative. C118_any gives the result for all resamplers, C118_iter for iteration without a sink. False for a negative offset (C118_false), and for iteration up to None, where the first part of a blend loses a frame that was not yielded (C118_actual)."
 ],
 "C119": [
  "partial",
  "C119_finite_partial: true for streams of less than 2^64 - 1 frames; C119_ratio_partial: true for all streams, if the ratio is at least the length of the buffer over 2^63. C119_agree: up to 2^64 - 1 iterations both builds agree with the model used elsewhere. C119_iff: the exact condition for endless streams. False for endless streams at a lower ratio (C119_overflow, C119_false): the debug build panics, the release build never returns."
 ],
 "C120": [
  "partial",
  "C120_none: no frame ever comes after None; C120_safe: streams of built-in layouts and operations do not panic either. C120_partial: and buffers lose nothing, if none is drained in the first part of a blend. False otherwise (C120_false): C120_actual: every further call takes a frame out of a longer first buffer."
 ],
 "C121": [
  "partial",
  "C121_release: the same without overflow checks. With them every panic is the same (C121_panics), and so is every result unless the stream ends past the largest usize between two slots (C121_debug); then ceil_usize overflows and the call panics (C121_false, witness at 32 bits), which cannot happen with 64 bits (C121_wide). C121_extend: extend gives the same result in both builds exactly if that fits into the memory."
 ],
 "C122": [
  "proved",
  "About the model of floats under every other claim, not about a function of the crate. C122_nearest, C122_unique: the rounding of the model is the only one to nearest with ties to even. C122_arith, C122_convert, C122_rem: each operation rounds its exact result once; remainders are exact. C122_nan, C122_inf, C122_sign, C122_order, C122_trunc: the cases IEEE 754 sets apart. C122_f64, C122_f32: the values are those of the 64 and 32 bits, one to one except NaN, which the model has once."
 ],
 "C123": [
  "proved",
  "About the model of integers under every other claim, not about a function of the crate. C123_signed: bits and numbers are one to one. C123_checked, C123_saturating, C123_div, C123_min_max, C123_widen_narrow, C123_shift: each operation against its definition on numbers; division panics exactly for a zero divisor and for the lowest number over -1."
 ],
 "C124": [
  "proved",
  "C124_keeps and C124_closed (returned calls), C124_lost (panics). C124_builtin: for the frames and streams of the crate this is the model of C48 to C51. C124_panics_iff: with frames and a stream that do not panic themselves and a stream of the length it says, the panics are those of C51_iff and no others. Implementations are functions: state that they share with their surroundings is not in the model."
 ],
 "C125": [
  "proved",
  "C125_iter and C125_stream (leaked), C125_dropped (what dropping does, as a relation between the two), C125_again: draining again yields the same frames. So leaking is safe, unlike for a drain that empties the vector at once."
 ],
 "C126": [
  "proved",
  "C126_take (panics included), C126_take_plays, C126_blend_plays, C126_panics_iff. C126_take_param: laws for pairs of streams carry over. C126_returns: together with C112_returns, sinks play such blends. C126_builtin_take, C126_builtin_blend: with the streams of the crate these are the adaptors of C31 and C32."
 ],
 "C127": [
  "proved",
  "C127_param, C127_flush, C127_returns, C127_takes. C127_logged: implementations that write down their calls do the same as before; C127_calls: the calls they write down. The example feeds the additions of the sink back to the stream. Destructors are not modelled."
 ],
 "C128": [
  "proved",
  "C128_take; C128_take_param, C128_blend_param, C128_blend, C128_extend_param; C128_keeps, C128_closed, C128_lost without assumptions on the stream; C128_panics_iff: the condition of C51_iff. Destructors are not modelled."
 ],
 "C129": [
  "partial",
  "False in 15 of the 121 directions: from 11025, 22050, 44100, 88200, 176400 Hz to 48000, 96000, 192000 Hz it panics on one second, one minute and one hour of audio (C129_false). C129_actual: in those directions it panics exactly if the resampled length D is whole and 13 D > 16 * 2^(floor(log2 D)). C129_partial: never in the other 106. C129_iff: for all whole rates it panics iff D is whole and the rounding error of the ratio times the stream length is more than half a unit in the last place of D; C129_never: so never if the ratio is rounded up by at most a quarter of a unit. C129_sharp: for whole rates up to 2^16 Hz this is exact: otherwise some whole number of seconds panics."
 ],
 "C130": [
  "proved",
  "C130_append and C130_back for results, C130_panics for panics, C130_all for several calls; C130_extra: the length is the sum of the ceilings, and at most one extra frame for each call but the first. An example shows that the bound is reached."
 ],
 "C131": [
  "proved",
  "C131_position and C131_hours for the position, C131_between and C131_whole for the slots, C131_share for the shares, C131_local for the effect on the buffer. For a sink whose resampler starts at offset 0."
 ],
 "C132": [
  "proved",
  "C132_first for the samples (equal but for the sign of zeros), C132_panics for the panics, C132_down and C132_up (when the rate goes up) for converting afterwards; C132_up_false: between integer and float formats the order matters when the rate goes up; C132_range and C132_after are the witnesses that the range matters and that converting afterwards is not exact."
 ],
 "C133": [
  "proved",
  "C133_stable: slots and sum when the rate does not go up; C133_up: slots when it goes up; C133_power: power, C133_with: power of the whole result of with_stream (whole rates). C133_only_down: when the rate goes up the bounds without the factor, and the bound on the power, do not hold."
 ],
 "C134": [
  "proved",
  "C134_alone, C134_commute. C134_overlap: for regions that overlap the order matters."
 ],
 "C135": [
  "proved",
  "C135_steps: also if the frame on the way has the format of the first frame or is Ch64 and the last one has any format, as long as no silence of an integer format is converted to another format and no mean is rounded twice; C135_false shows that these conditions are needed. C135_iff, C135_twice: without a change of format."
 ],
 "C136": [
  "proved",
  "For ratios that are positive numbers and slots of both destinations. C136_false, C136_end: the slot at the position of frame m may differ, as its frame differs or as the stream that ends there has only a part for it."
 ],
 "C137": [
  "partial",
  "For streams without Pan. C137_pan: between the speakers of Stereo Pan is symmetric too, up to rounding. C137_false: not in Surround, where no position from -2/3 on gives the mirror image of what another such position gives."
 ],
 "C138": [
  "partial",
  "C138_partial, C138_withStream: bit for bit for ratios a / 2^m. C138_down, C138_up: at all ratios up to 1, and at ratios of whole rates above 1 that are not rounded down by more than their 2^54th part, from any format to any format, up to a small error that is stated (C114_up_false: by far not if they are rounded down by more). C138_usual: this covers all usual rates. C138_false: the last bits may differ (from rate 10 to rate 3). C138_first: the very first slot is different, as there is nothing before it."
 ],
 "C139": [
  "partial",
  "True in all slots but one: the first slot of the second piece lacks what the last frames of the first piece would add to it (`C139_seam`), since `extend` starts with a fresh resampler and what the first piece leaves over for a slot outside is dropped. `C139_partial`/`C139_extend`: at ratios a/2^m everything else is equal bit for bit, including the lengths and the slot that `flush` writes; if the rate is multiplied by a whole number (or kept) there is no exception. `C139_skip`: the same for `Sink::stream` with buffers and lengths of any kind. `C139_down`, `C139_up`: at all other ratios up to explicit error bounds, from any format to any format (when the rate goes up, if the ratio is not rounded down by more than its 2^54th part; `C139_usual`: this covers all usual rates)."
 ],
 "C140": [
  "proved",
  "C140_down (bound 2·(C59 error) + 2 rounding steps), C140_up (bound a few times the rate ratio, if the stream does not clip); C140_clips: a loud upsampled stream is clipped before the gain; C140_rounding: exact equality fails."
 ],
 "C141": [
  "proved",
  "C141_stream, C141_with (every frame of with_stream), C141_cancel; C141_first shows the exception of the first slot, C141_up that there is no such filter when upsampling."
 ],
 "C142": [
  "proved",
  "C142_down for Sink::stream, C142_with for Audio::with_stream at whole rates, C142_whole for whole ratios. C142_up_false: when the rate goes up by another ratio (12 Hz to 18 Hz) the result is not the reverse."
 ],
 "C143": [
  "partial",
  "False if there is clipping (C143_clips: both channels go to one speaker; one loud frame and one of silence give half of the full level if panned first, and three quarters if resampled first). C143_pan_down, C143_pan_up: true with an explicit error if the levels of the channels add up to a little less than 1 and, when the rate goes up, the stream is quiet enough not to clip while it is resampled. C143_down, C143_up: the same for all effects that are linear in the sense of `LinearAt`."
 ],
 "C144": [
  "proved",
  "C144_mul_assoc, C144_distrib, C144_add_assoc for samples; C144_volumes, C144_mix_volume, C144_mixes for streams. C144_false: the bounds of one and two steps are attained, and without the conditions on clipping the results can be far apart."
 ],
 "C145": [
  "partial",
  "False when the rate goes up, where both the sound and the volume become pulses, and for volumes that change fast (C145_false). C145_partial: true when the rate does not go up, for every slot but the first, with an error of the range of the volumes played during the slot plus an explicit small error. C145_down, C145_up: at any rate a slot has G times the level it has without the volume if the volumes around it are within delta of G, up to delta and a small error (when the rate goes up, for sounds that do not clip). C145_withStream: C145_down for Audio::with_stream at whole rates, all slots but the last."
 ],
 "C146": [
  "partial",
  "False when the rate goes up (C146_false: frames of 1/2 become pulses of 1, which have twice the mean square). C146_partial: true for sinks when the rate does not go up, C146_with: the same for Audio::with_stream at whole rates. C146_up: at a ratio r above 1 the sum of the squares is at most r (r + 1) times that of the frames."
 ],
 "C147": [
  "partial",
  "False when the rate goes up (C147_false: there are pulses). C147_partial, C147_falling: true when the rate does not go up, for all slots but the first, up to twice the accuracy of the box filter. C147_slope: neighbouring slots differ by at most d (1/r + r/4) if neighbouring frames differ by at most d. C147_withStream, C147_withStream_slope: C147_partial and C147_slope for Audio::with_stream, all slots but the first and the last."
 ],
 "C148": [
  "partial",
  "False when the rate goes up (C148_false: there are pulses). True when the rate does not go up, for all slots but the first: C148_partial (in frames and slots), C148_half (the rate divided by a power of two: no loss but rounding), C148_time (in seconds), C148_lipschitz (sounds of bounded slope), C148_withStream (all slots but the first and the last)."
 ],
 "C149": [
  "partial",
  "That tones of more than half the new rate vanish is false (C149_false: a tone of 4 Hz is heard at 6 Hz, like one of 2 Hz). C149_whole: exact level for all whole factors, for all slots but the first, up to rounding. C149_gone: the tones that vanish are those that fit into a slot a whole number of times. C149_high: no tone comes out louder than 1 / (N sin(d / 2)). C149_partial: at every ratio up to 1 a tone keeps frequency and level, up to the square of the angle that it turns in a slot (C148_real is C148 with real numbers). C149_withStream: C149_whole for Audio::with_stream at whole rates, all slots but the first and the last."
 ],
 "C150": [
  "partial",
  "C150_down for all ratios up to 1 and all formats (plus a rounding error per slot). C150_up for ratios above 1 and signals quiet enough not to clip, with the weight that the code gives to each frame; C150_up_float is the property itself for float formats. For integer formats and higher rates it is false (C150_false: the sum is half of what it should be, because the gain of a new slot is cut off at 1). C150_withStream and C150_withStream_up: C150_down and C150_up_float for Audio::with_stream at whole rates, slots before the last."
 ],
 "C151": [
  "partial",
  "False (C151_false): there is no interpolation, so the tone arrives together with images. C151_partial, for whole factors N: the result is the sum of exactly N tones of the same level, at the frequency of the tone plus all multiples of the old rate below the new rate, up to one rounding. In the float formats each has the level of the tone (if nothing clips), in the integer formats an N-th of it. C151_withStream: C151_partial for Audio::with_stream, in every slot."
 ],
 "C152": [
  "partial",
  "False (C152_false): the numbers fall, the first time from -29125 to -29684. About every twelfth slot has no frame of its own and gets only what is left over of its neighbours. C152_partial: the program finishes and prints 558 numbers, the two of each pair equal; the first 69 pairs are within 1964 of the line, and within 23 wherever a frame of the source falls into the slot."
 ],
 "C153": [
  "partial",
  "False (C153_false): at 8 to 12 Hz every third slot has half the level. C153_partial: true, at every ratio from 1 on, for all slots that a frame has its position in; the weights of the frames that reach it add up to one. In the float formats only if the frame comes late enough in the slot, otherwise it is too loud. C153_gap: a slot without a frame of its own gets a part of the frame in the slot before it."
 ],
 "C154": [
  "partial",
  "False when the rate goes up and when the first slot counts (C154_false: constant signals move). C154_partial: true when the rate does not go up, for every stretch after the first slot, against the frames that are played during the stretch, up to the accuracy of the box filter for each slot. C154_withStream: the same for audio made by with_stream, without its last slot."
 ],
 "C155": [
  "partial",
  "False when the rate goes up (C155_false). C155_partial: true when the rate does not go up, for all slots but the first that are off the level by more than the accuracy of the box filter; every frame is played during its slot. C155_withStream: the same for with_stream, without the last slot."
 ],
 "C156": [
  "partial",
  "False when the rate goes up (C156_false). C156_partial: true when the rate does not go up, up to a small error for each slot. C156_abs: absolute values, and what exceeds any threshold. C156_with: the same for with_stream, for all slots."
 ],
 "C157": [
  "partial",
  "False for the integer formats (C157_false: 48000 Hz to 8000 Hz, level 6 of 127). C157_lost, C157_withStream: a channel in which every sample times the ratio is rounded to 0 becomes silence, and nothing is left over. C157_all, C157_all16: to 1/128 (Ch8) or 1/32768 (Ch16) of the rate every signal becomes silence. C157_partial: a slot is not silent if the mean over its time exceeds the bound of C59. C157_heard: C157_partial for Audio::with_stream."
 ],
 "C158": [
  "partial",
  "C158_partial: true in the float formats, samples are cut off at 1/N by the first trip and stay as they are. C158_ok: none of the trips panics. False in the integer formats (C158_false: 100, 49, 24). C158_ch8, C158_ch16: every trip multiplies by at most floor(127.5/N)/127 or floor(32767.5/N)/32767, and after seven (Ch8) or fifteen (Ch16) trips there is only silence. These are for powers of two. C158_trip_near, C158_near: for every whole factor N from 2 on every trip of a signal that is quiet enough not to clip changes float samples by at most tripErr (and divides integer samples by N), if the number of frames that fit is not rounded down on the way back, which is needed for the last slot. C158_ok_near: none of these trips panics if 1/N is not rounded up by more than its 2^54th part. C158_ok_iff: the exact condition under which trips do not panic. C158_ok_74: never up to N = 74; C158_panics: at N = 75 seven frames never come back. C158_usual: trips from one usual rate through a multiple that is a usual rate never panic. C158_48: up to N = 48 all of it holds for every number of frames (C158_last: at N = 49 a frame is lost)."
 ],
 "C159": [
  "partial",
  "False (C159_false: five frames at full level are lost between 48000 and 8000 Hz). C159_stream: if the ratio times the number of frames is less than 1, the stream is not played at all, the index of the resampler stays where it is and nothing is left over. C159_lost: with_stream makes silence of all such streams; C159_whole: at whole rates these are the streams of less than 1 / dst seconds, and the result is one frame of silence. C159_pieces: a sound of any length that is appended in such pieces becomes silence. C159_partial: in the slots that lie in the time of the stream, what is louder than the bound of C59 is heard."
 ]
}