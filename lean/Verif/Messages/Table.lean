/-!
# The table of message patterns

The patterns and signatures of `Synth::dispatchMessage` (SynthMessaging.cpp:21-577), in the order of
the source, each with its line.  They are written out letter by letter because the kernel computes
slowly with string literals.
-/

namespace Verif.Messages

/-- (line in SynthMessaging.cpp, pattern, signature) -/
def rows : List (Nat × List Char × List Char) := [
  -- "/hello", ""
  (21, ['/', 'h', 'e', 'l', 'l', 'o'],
    []),
  -- "/num_regions", ""
  (23, ['/', 'n', 'u', 'm', '_', 'r', 'e', 'g', 'i', 'o', 'n', 's'],
    []),
  -- "/num_groups", ""
  (24, ['/', 'n', 'u', 'm', '_', 'g', 'r', 'o', 'u', 'p', 's'],
    []),
  -- "/num_masters", ""
  (25, ['/', 'n', 'u', 'm', '_', 'm', 'a', 's', 't', 'e', 'r', 's'],
    []),
  -- "/num_curves", ""
  (26, ['/', 'n', 'u', 'm', '_', 'c', 'u', 'r', 'v', 'e', 's'],
    []),
  -- "/num_samples", ""
  (27, ['/', 'n', 'u', 'm', '_', 's', 'a', 'm', 'p', 'l', 'e', 's'],
    []),
  -- "/octave_offset", ""
  (28, ['/', 'o', 'c', 't', 'a', 'v', 'e', '_', 'o', 'f', 'f', 's', 'e', 't'],
    []),
  -- "/note_offset", ""
  (29, ['/', 'n', 'o', 't', 'e', '_', 'o', 'f', 'f', 's', 'e', 't'],
    []),
  -- "/num_outputs", ""
  (30, ['/', 'n', 'u', 'm', '_', 'o', 'u', 't', 'p', 'u', 't', 's'],
    []),
  -- "/num_active_voices", ""
  (31, ['/', 'n', 'u', 'm', '_', 'a', 'c', 't', 'i', 'v', 'e', '_', 'v', 'o', 'i', 'c', 'e', 's'],
    []),
  -- "/sustain_cancels_release", ""
  (32, ['/', 's', 'u', 's', 't', 'a', 'i', 'n', '_', 'c', 'a', 'n', 'c', 'e', 'l', 's', '_', 'r', 'e', 'l', 'e', 'a', 's', 'e'],
    []),
  -- "/sample_quality", ""
  (33, ['/', 's', 'a', 'm', 'p', 'l', 'e', '_', 'q', 'u', 'a', 'l', 'i', 't', 'y'],
    []),
  -- "/sustain_cancels_release", "s"
  (34, ['/', 's', 'u', 's', 't', 'a', 'i', 'n', '_', 'c', 'a', 'n', 'c', 'e', 'l', 's', '_', 'r', 'e', 'l', 'e', 'a', 's', 'e'],
    ['s']),
  -- "/sustain_cancels_release", "T"
  (35, ['/', 's', 'u', 's', 't', 'a', 'i', 'n', '_', 'c', 'a', 'n', 'c', 'e', 'l', 's', '_', 'r', 'e', 'l', 'e', 'a', 's', 'e'],
    ['T']),
  -- "/sustain_cancels_release", "F"
  (36, ['/', 's', 'u', 's', 't', 'a', 'i', 'n', '_', 'c', 'a', 'n', 'c', 'e', 'l', 's', '_', 'r', 'e', 'l', 'e', 'a', 's', 'e'],
    ['F']),
  -- "/sample_quality", "i"
  (37, ['/', 's', 'a', 'm', 'p', 'l', 'e', '_', 'q', 'u', 'a', 'l', 'i', 't', 'y'],
    ['i']),
  -- "/oscillator_quality", ""
  (38, ['/', 'o', 's', 'c', 'i', 'l', 'l', 'a', 't', 'o', 'r', '_', 'q', 'u', 'a', 'l', 'i', 't', 'y'],
    []),
  -- "/oscillator_quality", "i"
  (39, ['/', 'o', 's', 'c', 'i', 'l', 'l', 'a', 't', 'o', 'r', '_', 'q', 'u', 'a', 'l', 'i', 't', 'y'],
    ['i']),
  -- "/freewheeling_sample_quality", ""
  (40, ['/', 'f', 'r', 'e', 'e', 'w', 'h', 'e', 'e', 'l', 'i', 'n', 'g', '_', 's', 'a', 'm', 'p', 'l', 'e', '_', 'q', 'u', 'a', 'l', 'i', 't', 'y'],
    []),
  -- "/freewheeling_sample_quality", "i"
  (41, ['/', 'f', 'r', 'e', 'e', 'w', 'h', 'e', 'e', 'l', 'i', 'n', 'g', '_', 's', 'a', 'm', 'p', 'l', 'e', '_', 'q', 'u', 'a', 'l', 'i', 't', 'y'],
    ['i']),
  -- "/freewheeling_oscillator_quality", ""
  (42, ['/', 'f', 'r', 'e', 'e', 'w', 'h', 'e', 'e', 'l', 'i', 'n', 'g', '_', 'o', 's', 'c', 'i', 'l', 'l', 'a', 't', 'o', 'r', '_', 'q', 'u', 'a', 'l', 'i', 't', 'y'],
    []),
  -- "/freewheeling_oscillator_quality", "i"
  (43, ['/', 'f', 'r', 'e', 'e', 'w', 'h', 'e', 'e', 'l', 'i', 'n', 'g', '_', 'o', 's', 'c', 'i', 'l', 'l', 'a', 't', 'o', 'r', '_', 'q', 'u', 'a', 'l', 'i', 't', 'y'],
    ['i']),
  -- "/key/slots", ""
  (45, ['/', 'k', 'e', 'y', '/', 's', 'l', 'o', 't', 's'],
    []),
  -- "/key&/label", ""
  (46, ['/', 'k', 'e', 'y', '&', '/', 'l', 'a', 'b', 'e', 'l'],
    []),
  -- "/root_path", ""
  (48, ['/', 'r', 'o', 'o', 't', '_', 'p', 'a', 't', 'h'],
    []),
  -- "/image", ""
  (49, ['/', 'i', 'm', 'a', 'g', 'e'],
    []),
  -- "/image_controls", ""
  (50, ['/', 'i', 'm', 'a', 'g', 'e', '_', 'c', 'o', 'n', 't', 'r', 'o', 'l', 's'],
    []),
  -- "/sw/last/slots", ""
  (52, ['/', 's', 'w', '/', 'l', 'a', 's', 't', '/', 's', 'l', 'o', 't', 's'],
    []),
  -- "/sw/last/current", ""
  (53, ['/', 's', 'w', '/', 'l', 'a', 's', 't', '/', 'c', 'u', 'r', 'r', 'e', 'n', 't'],
    []),
  -- "/sw/last/&/label", ""
  (54, ['/', 's', 'w', '/', 'l', 'a', 's', 't', '/', '&', '/', 'l', 'a', 'b', 'e', 'l'],
    []),
  -- "/cc/slots", ""
  (56, ['/', 'c', 'c', '/', 's', 'l', 'o', 't', 's'],
    []),
  -- "/cc&/default", ""
  (57, ['/', 'c', 'c', '&', '/', 'd', 'e', 'f', 'a', 'u', 'l', 't'],
    []),
  -- "/cc&/value", ""
  (58, ['/', 'c', 'c', '&', '/', 'v', 'a', 'l', 'u', 'e'],
    []),
  -- "/cc&/value", "f"
  (59, ['/', 'c', 'c', '&', '/', 'v', 'a', 'l', 'u', 'e'],
    ['f']),
  -- "/cc&/label", ""
  (60, ['/', 'c', 'c', '&', '/', 'l', 'a', 'b', 'e', 'l'],
    []),
  -- "/cc/changed", ""
  (61, ['/', 'c', 'c', '/', 'c', 'h', 'a', 'n', 'g', 'e', 'd'],
    []),
  -- "/cc/changed~", ""
  (62, ['/', 'c', 'c', '/', 'c', 'h', 'a', 'n', 'g', 'e', 'd', '~'],
    []),
  -- "/sustain_or_sostenuto/slots", ""
  (63, ['/', 's', 'u', 's', 't', 'a', 'i', 'n', '_', 'o', 'r', '_', 's', 'o', 's', 't', 'e', 'n', 'u', 't', 'o', '/', 's', 'l', 'o', 't', 's'],
    []),
  -- "/aftertouch", ""
  (64, ['/', 'a', 'f', 't', 'e', 'r', 't', 'o', 'u', 'c', 'h'],
    []),
  -- "/poly_aftertouch/&", ""
  (65, ['/', 'p', 'o', 'l', 'y', '_', 'a', 'f', 't', 'e', 'r', 't', 'o', 'u', 'c', 'h', '/', '&'],
    []),
  -- "/pitch_bend", ""
  (66, ['/', 'p', 'i', 't', 'c', 'h', '_', 'b', 'e', 'n', 'd'],
    []),
  -- "/mem/buffers", ""
  (68, ['/', 'm', 'e', 'm', '/', 'b', 'u', 'f', 'f', 'e', 'r', 's'],
    []),
  -- "/region&/delay", ""
  (70, ['/', 'r', 'e', 'g', 'i', 'o', 'n', '&', '/', 'd', 'e', 'l', 'a', 'y'],
    []),
  -- "/region&/delay", "f"
  (71, ['/', 'r', 'e', 'g', 'i', 'o', 'n', '&', '/', 'd', 'e', 'l', 'a', 'y'],
    ['f']),
  -- "/region&/delay_random", ""
  (72, ['/', 'r', 'e', 'g', 'i', 'o', 'n', '&', '/', 'd', 'e', 'l', 'a', 'y', '_', 'r', 'a', 'n', 'd', 'o', 'm'],
    []),
  -- "/region&/delay_random", "f"
  (73, ['/', 'r', 'e', 'g', 'i', 'o', 'n', '&', '/', 'd', 'e', 'l', 'a', 'y', '_', 'r', 'a', 'n', 'd', 'o', 'm'],
    ['f']),
  -- "/region&/sample", ""
  (74, ['/', 'r', 'e', 'g', 'i', 'o', 'n', '&', '/', 's', 'a', 'm', 'p', 'l', 'e'],
    []),
  -- "/region&/direction", ""
  (75, ['/', 'r', 'e', 'g', 'i', 'o', 'n', '&', '/', 'd', 'i', 'r', 'e', 'c', 't', 'i', 'o', 'n'],
    []),
  -- "/region&/delay_cc&", ""
  (76, ['/', 'r', 'e', 'g', 'i', 'o', 'n', '&', '/', 'd', 'e', 'l', 'a', 'y', '_', 'c', 'c', '&'],
    []),
  -- "/region&/delay_cc&", "f"
  (77, ['/', 'r', 'e', 'g', 'i', 'o', 'n', '&', '/', 'd', 'e', 'l', 'a', 'y', '_', 'c', 'c', '&'],
    ['f']),
  -- "/region&/offset", ""
  (78, ['/', 'r', 'e', 'g', 'i', 'o', 'n', '&', '/', 'o', 'f', 'f', 's', 'e', 't'],
    []),
  -- "/region&/offset", "h"
  (79, ['/', 'r', 'e', 'g', 'i', 'o', 'n', '&', '/', 'o', 'f', 'f', 's', 'e', 't'],
    ['h']),
  -- "/region&/offset_random", ""
  (80, ['/', 'r', 'e', 'g', 'i', 'o', 'n', '&', '/', 'o', 'f', 'f', 's', 'e', 't', '_', 'r', 'a', 'n', 'd', 'o', 'm'],
    []),
  -- "/region&/offset_random", "h"
  (81, ['/', 'r', 'e', 'g', 'i', 'o', 'n', '&', '/', 'o', 'f', 'f', 's', 'e', 't', '_', 'r', 'a', 'n', 'd', 'o', 'm'],
    ['h']),
  -- "/region&/offset_cc&", ""
  (82, ['/', 'r', 'e', 'g', 'i', 'o', 'n', '&', '/', 'o', 'f', 'f', 's', 'e', 't', '_', 'c', 'c', '&'],
    []),
  -- "/region&/offset_cc&", "h"
  (83, ['/', 'r', 'e', 'g', 'i', 'o', 'n', '&', '/', 'o', 'f', 'f', 's', 'e', 't', '_', 'c', 'c', '&'],
    ['h']),
  -- "/region&/end", ""
  (84, ['/', 'r', 'e', 'g', 'i', 'o', 'n', '&', '/', 'e', 'n', 'd'],
    []),
  -- "/region&/end", "h"
  (85, ['/', 'r', 'e', 'g', 'i', 'o', 'n', '&', '/', 'e', 'n', 'd'],
    ['h']),
  -- "/region&/end_cc&", ""
  (86, ['/', 'r', 'e', 'g', 'i', 'o', 'n', '&', '/', 'e', 'n', 'd', '_', 'c', 'c', '&'],
    []),
  -- "/region&/end_cc&", "h"
  (87, ['/', 'r', 'e', 'g', 'i', 'o', 'n', '&', '/', 'e', 'n', 'd', '_', 'c', 'c', '&'],
    ['h']),
  -- "/region&/enabled", ""
  (88, ['/', 'r', 'e', 'g', 'i', 'o', 'n', '&', '/', 'e', 'n', 'a', 'b', 'l', 'e', 'd'],
    []),
  -- "/region&/trigger_on_note", ""
  (89, ['/', 'r', 'e', 'g', 'i', 'o', 'n', '&', '/', 't', 'r', 'i', 'g', 'g', 'e', 'r', '_', 'o', 'n', '_', 'n', 'o', 't', 'e'],
    []),
  -- "/region&/trigger_on_cc", ""
  (90, ['/', 'r', 'e', 'g', 'i', 'o', 'n', '&', '/', 't', 'r', 'i', 'g', 'g', 'e', 'r', '_', 'o', 'n', '_', 'c', 'c'],
    []),
  -- "/region&/use_timer_range", ""
  (91, ['/', 'r', 'e', 'g', 'i', 'o', 'n', '&', '/', 'u', 's', 'e', '_', 't', 'i', 'm', 'e', 'r', '_', 'r', 'a', 'n', 'g', 'e'],
    []),
  -- "/region&/count", ""
  (92, ['/', 'r', 'e', 'g', 'i', 'o', 'n', '&', '/', 'c', 'o', 'u', 'n', 't'],
    []),
  -- "/region&/count", "i"
  (93, ['/', 'r', 'e', 'g', 'i', 'o', 'n', '&', '/', 'c', 'o', 'u', 'n', 't'],
    ['i']),
  -- "/region&/count", "N"
  (94, ['/', 'r', 'e', 'g', 'i', 'o', 'n', '&', '/', 'c', 'o', 'u', 'n', 't'],
    ['N']),
  -- "/region&/loop_range", ""
  (95, ['/', 'r', 'e', 'g', 'i', 'o', 'n', '&', '/', 'l', 'o', 'o', 'p', '_', 'r', 'a', 'n', 'g', 'e'],
    []),
  -- "/region&/loop_range", "hh"
  (96, ['/', 'r', 'e', 'g', 'i', 'o', 'n', '&', '/', 'l', 'o', 'o', 'p', '_', 'r', 'a', 'n', 'g', 'e'],
    ['h', 'h']),
  -- "/region&/loop_start_cc&", ""
  (97, ['/', 'r', 'e', 'g', 'i', 'o', 'n', '&', '/', 'l', 'o', 'o', 'p', '_', 's', 't', 'a', 'r', 't', '_', 'c', 'c', '&'],
    []),
  -- "/region&/loop_start_cc&", "h"
  (98, ['/', 'r', 'e', 'g', 'i', 'o', 'n', '&', '/', 'l', 'o', 'o', 'p', '_', 's', 't', 'a', 'r', 't', '_', 'c', 'c', '&'],
    ['h']),
  -- "/region&/loop_end_cc&", ""
  (99, ['/', 'r', 'e', 'g', 'i', 'o', 'n', '&', '/', 'l', 'o', 'o', 'p', '_', 'e', 'n', 'd', '_', 'c', 'c', '&'],
    []),
  -- "/region&/loop_end_cc&", "h"
  (100, ['/', 'r', 'e', 'g', 'i', 'o', 'n', '&', '/', 'l', 'o', 'o', 'p', '_', 'e', 'n', 'd', '_', 'c', 'c', '&'],
    ['h']),
  -- "/region&/loop_mode", ""
  (101, ['/', 'r', 'e', 'g', 'i', 'o', 'n', '&', '/', 'l', 'o', 'o', 'p', '_', 'm', 'o', 'd', 'e'],
    []),
  -- "/region&/loop_mode", "s"
  (102, ['/', 'r', 'e', 'g', 'i', 'o', 'n', '&', '/', 'l', 'o', 'o', 'p', '_', 'm', 'o', 'd', 'e'],
    ['s']),
  -- "/region&/loop_crossfade", ""
  (103, ['/', 'r', 'e', 'g', 'i', 'o', 'n', '&', '/', 'l', 'o', 'o', 'p', '_', 'c', 'r', 'o', 's', 's', 'f', 'a', 'd', 'e'],
    []),
  -- "/region&/loop_crossfade", "f"
  (104, ['/', 'r', 'e', 'g', 'i', 'o', 'n', '&', '/', 'l', 'o', 'o', 'p', '_', 'c', 'r', 'o', 's', 's', 'f', 'a', 'd', 'e'],
    ['f']),
  -- "/region&/loop_count", ""
  (105, ['/', 'r', 'e', 'g', 'i', 'o', 'n', '&', '/', 'l', 'o', 'o', 'p', '_', 'c', 'o', 'u', 'n', 't'],
    []),
  -- "/region&/loop_count", "i"
  (106, ['/', 'r', 'e', 'g', 'i', 'o', 'n', '&', '/', 'l', 'o', 'o', 'p', '_', 'c', 'o', 'u', 'n', 't'],
    ['i']),
  -- "/region&/loop_count", "N"
  (107, ['/', 'r', 'e', 'g', 'i', 'o', 'n', '&', '/', 'l', 'o', 'o', 'p', '_', 'c', 'o', 'u', 'n', 't'],
    ['N']),
  -- "/region&/output", ""
  (108, ['/', 'r', 'e', 'g', 'i', 'o', 'n', '&', '/', 'o', 'u', 't', 'p', 'u', 't'],
    []),
  -- "/region&/output", "i"
  (109, ['/', 'r', 'e', 'g', 'i', 'o', 'n', '&', '/', 'o', 'u', 't', 'p', 'u', 't'],
    ['i']),
  -- "/region&/group", ""
  (110, ['/', 'r', 'e', 'g', 'i', 'o', 'n', '&', '/', 'g', 'r', 'o', 'u', 'p'],
    []),
  -- "/region&/group", "h"
  (111, ['/', 'r', 'e', 'g', 'i', 'o', 'n', '&', '/', 'g', 'r', 'o', 'u', 'p'],
    ['h']),
  -- "/region&/off_by", ""
  (112, ['/', 'r', 'e', 'g', 'i', 'o', 'n', '&', '/', 'o', 'f', 'f', '_', 'b', 'y'],
    []),
  -- "/region&/off_by", "h"
  (113, ['/', 'r', 'e', 'g', 'i', 'o', 'n', '&', '/', 'o', 'f', 'f', '_', 'b', 'y'],
    ['h']),
  -- "/region&/off_by", "N"
  (114, ['/', 'r', 'e', 'g', 'i', 'o', 'n', '&', '/', 'o', 'f', 'f', '_', 'b', 'y'],
    ['N']),
  -- "/region&/off_mode", ""
  (115, ['/', 'r', 'e', 'g', 'i', 'o', 'n', '&', '/', 'o', 'f', 'f', '_', 'm', 'o', 'd', 'e'],
    []),
  -- "/region&/off_mode", "s"
  (116, ['/', 'r', 'e', 'g', 'i', 'o', 'n', '&', '/', 'o', 'f', 'f', '_', 'm', 'o', 'd', 'e'],
    ['s']),
  -- "/region&/key_range", ""
  (117, ['/', 'r', 'e', 'g', 'i', 'o', 'n', '&', '/', 'k', 'e', 'y', '_', 'r', 'a', 'n', 'g', 'e'],
    []),
  -- "/region&/key_range", "ii"
  (118, ['/', 'r', 'e', 'g', 'i', 'o', 'n', '&', '/', 'k', 'e', 'y', '_', 'r', 'a', 'n', 'g', 'e'],
    ['i', 'i']),
  -- "/region&/off_time", ""
  (119, ['/', 'r', 'e', 'g', 'i', 'o', 'n', '&', '/', 'o', 'f', 'f', '_', 't', 'i', 'm', 'e'],
    []),
  -- "/region&/off_time", "f"
  (120, ['/', 'r', 'e', 'g', 'i', 'o', 'n', '&', '/', 'o', 'f', 'f', '_', 't', 'i', 'm', 'e'],
    ['f']),
  -- "/region&/pitch_keycenter", ""
  (121, ['/', 'r', 'e', 'g', 'i', 'o', 'n', '&', '/', 'p', 'i', 't', 'c', 'h', '_', 'k', 'e', 'y', 'c', 'e', 'n', 't', 'e', 'r'],
    []),
  -- "/region&/pitch_keycenter", "i"
  (122, ['/', 'r', 'e', 'g', 'i', 'o', 'n', '&', '/', 'p', 'i', 't', 'c', 'h', '_', 'k', 'e', 'y', 'c', 'e', 'n', 't', 'e', 'r'],
    ['i']),
  -- "/region&/vel_range", ""
  (123, ['/', 'r', 'e', 'g', 'i', 'o', 'n', '&', '/', 'v', 'e', 'l', '_', 'r', 'a', 'n', 'g', 'e'],
    []),
  -- "/region&/vel_range", "ff"
  (124, ['/', 'r', 'e', 'g', 'i', 'o', 'n', '&', '/', 'v', 'e', 'l', '_', 'r', 'a', 'n', 'g', 'e'],
    ['f', 'f']),
  -- "/region&/bend_range", ""
  (125, ['/', 'r', 'e', 'g', 'i', 'o', 'n', '&', '/', 'b', 'e', 'n', 'd', '_', 'r', 'a', 'n', 'g', 'e'],
    []),
  -- "/region&/bend_range", "ff"
  (126, ['/', 'r', 'e', 'g', 'i', 'o', 'n', '&', '/', 'b', 'e', 'n', 'd', '_', 'r', 'a', 'n', 'g', 'e'],
    ['f', 'f']),
  -- "/region&/program_range", ""
  (127, ['/', 'r', 'e', 'g', 'i', 'o', 'n', '&', '/', 'p', 'r', 'o', 'g', 'r', 'a', 'm', '_', 'r', 'a', 'n', 'g', 'e'],
    []),
  -- "/region&/program_range", "ii"
  (128, ['/', 'r', 'e', 'g', 'i', 'o', 'n', '&', '/', 'p', 'r', 'o', 'g', 'r', 'a', 'm', '_', 'r', 'a', 'n', 'g', 'e'],
    ['i', 'i']),
  -- "/region&/cc_range&", ""
  (129, ['/', 'r', 'e', 'g', 'i', 'o', 'n', '&', '/', 'c', 'c', '_', 'r', 'a', 'n', 'g', 'e', '&'],
    []),
  -- "/region&/cc_range&", "ff"
  (130, ['/', 'r', 'e', 'g', 'i', 'o', 'n', '&', '/', 'c', 'c', '_', 'r', 'a', 'n', 'g', 'e', '&'],
    ['f', 'f']),
  -- "/region&/sw_last", ""
  (131, ['/', 'r', 'e', 'g', 'i', 'o', 'n', '&', '/', 's', 'w', '_', 'l', 'a', 's', 't'],
    []),
  -- "/region&/sw_last", "i"
  (137, ['/', 'r', 'e', 'g', 'i', 'o', 'n', '&', '/', 's', 'w', '_', 'l', 'a', 's', 't'],
    ['i']),
  -- "/region&/sw_last", "ii"
  (143, ['/', 'r', 'e', 'g', 'i', 'o', 'n', '&', '/', 's', 'w', '_', 'l', 'a', 's', 't'],
    ['i', 'i']),
  -- "/region&/sw_label", ""
  (149, ['/', 'r', 'e', 'g', 'i', 'o', 'n', '&', '/', 's', 'w', '_', 'l', 'a', 'b', 'e', 'l'],
    []),
  -- "/region&/sw_label", "s"
  (150, ['/', 'r', 'e', 'g', 'i', 'o', 'n', '&', '/', 's', 'w', '_', 'l', 'a', 'b', 'e', 'l'],
    ['s']),
  -- "/region&/sw_up", ""
  (151, ['/', 'r', 'e', 'g', 'i', 'o', 'n', '&', '/', 's', 'w', '_', 'u', 'p'],
    []),
  -- "/region&/sw_up", "i"
  (152, ['/', 'r', 'e', 'g', 'i', 'o', 'n', '&', '/', 's', 'w', '_', 'u', 'p'],
    ['i']),
  -- "/region&/sw_up", "s"
  (153, ['/', 'r', 'e', 'g', 'i', 'o', 'n', '&', '/', 's', 'w', '_', 'u', 'p'],
    ['s']),
  -- "/region&/sw_down", ""
  (154, ['/', 'r', 'e', 'g', 'i', 'o', 'n', '&', '/', 's', 'w', '_', 'd', 'o', 'w', 'n'],
    []),
  -- "/region&/sw_down", "i"
  (155, ['/', 'r', 'e', 'g', 'i', 'o', 'n', '&', '/', 's', 'w', '_', 'd', 'o', 'w', 'n'],
    ['i']),
  -- "/region&/sw_down", "s"
  (156, ['/', 'r', 'e', 'g', 'i', 'o', 'n', '&', '/', 's', 'w', '_', 'd', 'o', 'w', 'n'],
    ['s']),
  -- "/region&/sw_previous", ""
  (157, ['/', 'r', 'e', 'g', 'i', 'o', 'n', '&', '/', 's', 'w', '_', 'p', 'r', 'e', 'v', 'i', 'o', 'u', 's'],
    []),
  -- "/region&/sw_previous", "i"
  (158, ['/', 'r', 'e', 'g', 'i', 'o', 'n', '&', '/', 's', 'w', '_', 'p', 'r', 'e', 'v', 'i', 'o', 'u', 's'],
    ['i']),
  -- "/region&/sw_previous", "s"
  (159, ['/', 'r', 'e', 'g', 'i', 'o', 'n', '&', '/', 's', 'w', '_', 'p', 'r', 'e', 'v', 'i', 'o', 'u', 's'],
    ['s']),
  -- "/region&/sw_vel", ""
  (160, ['/', 'r', 'e', 'g', 'i', 'o', 'n', '&', '/', 's', 'w', '_', 'v', 'e', 'l'],
    []),
  -- "/region&/sw_vel", "s"
  (161, ['/', 'r', 'e', 'g', 'i', 'o', 'n', '&', '/', 's', 'w', '_', 'v', 'e', 'l'],
    ['s']),
  -- "/region&/chanaft_range", ""
  (162, ['/', 'r', 'e', 'g', 'i', 'o', 'n', '&', '/', 'c', 'h', 'a', 'n', 'a', 'f', 't', '_', 'r', 'a', 'n', 'g', 'e'],
    []),
  -- "/region&/chanaft_range", "ff"
  (163, ['/', 'r', 'e', 'g', 'i', 'o', 'n', '&', '/', 'c', 'h', 'a', 'n', 'a', 'f', 't', '_', 'r', 'a', 'n', 'g', 'e'],
    ['f', 'f']),
  -- "/region&/polyaft_range", ""
  (164, ['/', 'r', 'e', 'g', 'i', 'o', 'n', '&', '/', 'p', 'o', 'l', 'y', 'a', 'f', 't', '_', 'r', 'a', 'n', 'g', 'e'],
    []),
  -- "/region&/polyaft_range", "ff"
  (165, ['/', 'r', 'e', 'g', 'i', 'o', 'n', '&', '/', 'p', 'o', 'l', 'y', 'a', 'f', 't', '_', 'r', 'a', 'n', 'g', 'e'],
    ['f', 'f']),
  -- "/region&/bpm_range", ""
  (166, ['/', 'r', 'e', 'g', 'i', 'o', 'n', '&', '/', 'b', 'p', 'm', '_', 'r', 'a', 'n', 'g', 'e'],
    []),
  -- "/region&/bpm_range", "ff"
  (167, ['/', 'r', 'e', 'g', 'i', 'o', 'n', '&', '/', 'b', 'p', 'm', '_', 'r', 'a', 'n', 'g', 'e'],
    ['f', 'f']),
  -- "/region&/rand_range", ""
  (168, ['/', 'r', 'e', 'g', 'i', 'o', 'n', '&', '/', 'r', 'a', 'n', 'd', '_', 'r', 'a', 'n', 'g', 'e'],
    []),
  -- "/region&/rand_range", "ff"
  (169, ['/', 'r', 'e', 'g', 'i', 'o', 'n', '&', '/', 'r', 'a', 'n', 'd', '_', 'r', 'a', 'n', 'g', 'e'],
    ['f', 'f']),
  -- "/region&/seq_length", ""
  (170, ['/', 'r', 'e', 'g', 'i', 'o', 'n', '&', '/', 's', 'e', 'q', '_', 'l', 'e', 'n', 'g', 't', 'h'],
    []),
  -- "/region&/seq_length", "i"
  (171, ['/', 'r', 'e', 'g', 'i', 'o', 'n', '&', '/', 's', 'e', 'q', '_', 'l', 'e', 'n', 'g', 't', 'h'],
    ['i']),
  -- "/region&/seq_position", ""
  (172, ['/', 'r', 'e', 'g', 'i', 'o', 'n', '&', '/', 's', 'e', 'q', '_', 'p', 'o', 's', 'i', 't', 'i', 'o', 'n'],
    []),
  -- "/region&/seq_position", "i"
  (173, ['/', 'r', 'e', 'g', 'i', 'o', 'n', '&', '/', 's', 'e', 'q', '_', 'p', 'o', 's', 'i', 't', 'i', 'o', 'n'],
    ['i']),
  -- "/region&/trigger", ""
  (174, ['/', 'r', 'e', 'g', 'i', 'o', 'n', '&', '/', 't', 'r', 'i', 'g', 'g', 'e', 'r'],
    []),
  -- "/region&/trigger", "s"
  (175, ['/', 'r', 'e', 'g', 'i', 'o', 'n', '&', '/', 't', 'r', 'i', 'g', 'g', 'e', 'r'],
    ['s']),
  -- "/region&/start_cc_range&", ""
  (176, ['/', 'r', 'e', 'g', 'i', 'o', 'n', '&', '/', 's', 't', 'a', 'r', 't', '_', 'c', 'c', '_', 'r', 'a', 'n', 'g', 'e', '&'],
    []),
  -- "/region&/start_cc_range&", "ff"
  (177, ['/', 'r', 'e', 'g', 'i', 'o', 'n', '&', '/', 's', 't', 'a', 'r', 't', '_', 'c', 'c', '_', 'r', 'a', 'n', 'g', 'e', '&'],
    ['f', 'f']),
  -- "/region&/volume", ""
  (178, ['/', 'r', 'e', 'g', 'i', 'o', 'n', '&', '/', 'v', 'o', 'l', 'u', 'm', 'e'],
    []),
  -- "/region&/volume", "f"
  (179, ['/', 'r', 'e', 'g', 'i', 'o', 'n', '&', '/', 'v', 'o', 'l', 'u', 'm', 'e'],
    ['f']),
  -- "/region&/volume_cc&", ""
  (181, ['/', 'r', 'e', 'g', 'i', 'o', 'n', '&', '/', 'v', 'o', 'l', 'u', 'm', 'e', '_', 'c', 'c', '&'],
    []),
  -- "/region&/volume_stepcc&", ""
  (182, ['/', 'r', 'e', 'g', 'i', 'o', 'n', '&', '/', 'v', 'o', 'l', 'u', 'm', 'e', '_', 's', 't', 'e', 'p', 'c', 'c', '&'],
    []),
  -- "/region&/volume_smoothcc&", ""
  (183, ['/', 'r', 'e', 'g', 'i', 'o', 'n', '&', '/', 'v', 'o', 'l', 'u', 'm', 'e', '_', 's', 'm', 'o', 'o', 't', 'h', 'c', 'c', '&'],
    []),
  -- "/region&/volume_curvecc&", ""
  (184, ['/', 'r', 'e', 'g', 'i', 'o', 'n', '&', '/', 'v', 'o', 'l', 'u', 'm', 'e', '_', 'c', 'u', 'r', 'v', 'e', 'c', 'c', '&'],
    []),
  -- "/region&/pan", ""
  (185, ['/', 'r', 'e', 'g', 'i', 'o', 'n', '&', '/', 'p', 'a', 'n'],
    []),
  -- "/region&/pan", "f"
  (186, ['/', 'r', 'e', 'g', 'i', 'o', 'n', '&', '/', 'p', 'a', 'n'],
    ['f']),
  -- "/region&/pan_cc&", ""
  (187, ['/', 'r', 'e', 'g', 'i', 'o', 'n', '&', '/', 'p', 'a', 'n', '_', 'c', 'c', '&'],
    []),
  -- "/region&/pan_stepcc&", ""
  (188, ['/', 'r', 'e', 'g', 'i', 'o', 'n', '&', '/', 'p', 'a', 'n', '_', 's', 't', 'e', 'p', 'c', 'c', '&'],
    []),
  -- "/region&/pan_smoothcc&", ""
  (189, ['/', 'r', 'e', 'g', 'i', 'o', 'n', '&', '/', 'p', 'a', 'n', '_', 's', 'm', 'o', 'o', 't', 'h', 'c', 'c', '&'],
    []),
  -- "/region&/pan_curvecc&", ""
  (190, ['/', 'r', 'e', 'g', 'i', 'o', 'n', '&', '/', 'p', 'a', 'n', '_', 'c', 'u', 'r', 'v', 'e', 'c', 'c', '&'],
    []),
  -- "/region&/width", ""
  (191, ['/', 'r', 'e', 'g', 'i', 'o', 'n', '&', '/', 'w', 'i', 'd', 't', 'h'],
    []),
  -- "/region&/width", "f"
  (192, ['/', 'r', 'e', 'g', 'i', 'o', 'n', '&', '/', 'w', 'i', 'd', 't', 'h'],
    ['f']),
  -- "/region&/width_cc&", ""
  (193, ['/', 'r', 'e', 'g', 'i', 'o', 'n', '&', '/', 'w', 'i', 'd', 't', 'h', '_', 'c', 'c', '&'],
    []),
  -- "/region&/width_stepcc&", ""
  (194, ['/', 'r', 'e', 'g', 'i', 'o', 'n', '&', '/', 'w', 'i', 'd', 't', 'h', '_', 's', 't', 'e', 'p', 'c', 'c', '&'],
    []),
  -- "/region&/width_smoothcc&", ""
  (195, ['/', 'r', 'e', 'g', 'i', 'o', 'n', '&', '/', 'w', 'i', 'd', 't', 'h', '_', 's', 'm', 'o', 'o', 't', 'h', 'c', 'c', '&'],
    []),
  -- "/region&/width_curvecc&", ""
  (196, ['/', 'r', 'e', 'g', 'i', 'o', 'n', '&', '/', 'w', 'i', 'd', 't', 'h', '_', 'c', 'u', 'r', 'v', 'e', 'c', 'c', '&'],
    []),
  -- "/region&/timer_range", ""
  (197, ['/', 'r', 'e', 'g', 'i', 'o', 'n', '&', '/', 't', 'i', 'm', 'e', 'r', '_', 'r', 'a', 'n', 'g', 'e'],
    []),
  -- "/region&/position", ""
  (198, ['/', 'r', 'e', 'g', 'i', 'o', 'n', '&', '/', 'p', 'o', 's', 'i', 't', 'i', 'o', 'n'],
    []),
  -- "/region&/position", "f"
  (199, ['/', 'r', 'e', 'g', 'i', 'o', 'n', '&', '/', 'p', 'o', 's', 'i', 't', 'i', 'o', 'n'],
    ['f']),
  -- "/region&/position_cc&", ""
  (200, ['/', 'r', 'e', 'g', 'i', 'o', 'n', '&', '/', 'p', 'o', 's', 'i', 't', 'i', 'o', 'n', '_', 'c', 'c', '&'],
    []),
  -- "/region&/position_stepcc&", ""
  (201, ['/', 'r', 'e', 'g', 'i', 'o', 'n', '&', '/', 'p', 'o', 's', 'i', 't', 'i', 'o', 'n', '_', 's', 't', 'e', 'p', 'c', 'c', '&'],
    []),
  -- "/region&/position_smoothcc&", ""
  (202, ['/', 'r', 'e', 'g', 'i', 'o', 'n', '&', '/', 'p', 'o', 's', 'i', 't', 'i', 'o', 'n', '_', 's', 'm', 'o', 'o', 't', 'h', 'c', 'c', '&'],
    []),
  -- "/region&/position_curvecc&", ""
  (203, ['/', 'r', 'e', 'g', 'i', 'o', 'n', '&', '/', 'p', 'o', 's', 'i', 't', 'i', 'o', 'n', '_', 'c', 'u', 'r', 'v', 'e', 'c', 'c', '&'],
    []),
  -- "/region&/amplitude", ""
  (204, ['/', 'r', 'e', 'g', 'i', 'o', 'n', '&', '/', 'a', 'm', 'p', 'l', 'i', 't', 'u', 'd', 'e'],
    []),
  -- "/region&/amplitude", "f"
  (205, ['/', 'r', 'e', 'g', 'i', 'o', 'n', '&', '/', 'a', 'm', 'p', 'l', 'i', 't', 'u', 'd', 'e'],
    ['f']),
  -- "/region&/amplitude_cc&", ""
  (206, ['/', 'r', 'e', 'g', 'i', 'o', 'n', '&', '/', 'a', 'm', 'p', 'l', 'i', 't', 'u', 'd', 'e', '_', 'c', 'c', '&'],
    []),
  -- "/region&/amplitude_stepcc&", ""
  (207, ['/', 'r', 'e', 'g', 'i', 'o', 'n', '&', '/', 'a', 'm', 'p', 'l', 'i', 't', 'u', 'd', 'e', '_', 's', 't', 'e', 'p', 'c', 'c', '&'],
    []),
  -- "/region&/amplitude_smoothcc&", ""
  (208, ['/', 'r', 'e', 'g', 'i', 'o', 'n', '&', '/', 'a', 'm', 'p', 'l', 'i', 't', 'u', 'd', 'e', '_', 's', 'm', 'o', 'o', 't', 'h', 'c', 'c', '&'],
    []),
  -- "/region&/amplitude_curvecc&", ""
  (209, ['/', 'r', 'e', 'g', 'i', 'o', 'n', '&', '/', 'a', 'm', 'p', 'l', 'i', 't', 'u', 'd', 'e', '_', 'c', 'u', 'r', 'v', 'e', 'c', 'c', '&'],
    []),
  -- "/region&/amp_keycenter", ""
  (210, ['/', 'r', 'e', 'g', 'i', 'o', 'n', '&', '/', 'a', 'm', 'p', '_', 'k', 'e', 'y', 'c', 'e', 'n', 't', 'e', 'r'],
    []),
  -- "/region&/amp_keycenter", "i"
  (211, ['/', 'r', 'e', 'g', 'i', 'o', 'n', '&', '/', 'a', 'm', 'p', '_', 'k', 'e', 'y', 'c', 'e', 'n', 't', 'e', 'r'],
    ['i']),
  -- "/region&/amp_keytrack", ""
  (212, ['/', 'r', 'e', 'g', 'i', 'o', 'n', '&', '/', 'a', 'm', 'p', '_', 'k', 'e', 'y', 't', 'r', 'a', 'c', 'k'],
    []),
  -- "/region&/amp_keytrack", "f"
  (213, ['/', 'r', 'e', 'g', 'i', 'o', 'n', '&', '/', 'a', 'm', 'p', '_', 'k', 'e', 'y', 't', 'r', 'a', 'c', 'k'],
    ['f']),
  -- "/region&/amp_veltrack", ""
  (214, ['/', 'r', 'e', 'g', 'i', 'o', 'n', '&', '/', 'a', 'm', 'p', '_', 'v', 'e', 'l', 't', 'r', 'a', 'c', 'k'],
    []),
  -- "/region&/amp_veltrack", "f"
  (215, ['/', 'r', 'e', 'g', 'i', 'o', 'n', '&', '/', 'a', 'm', 'p', '_', 'v', 'e', 'l', 't', 'r', 'a', 'c', 'k'],
    ['f']),
  -- "/region&/amp_veltrack_cc&", ""
  (216, ['/', 'r', 'e', 'g', 'i', 'o', 'n', '&', '/', 'a', 'm', 'p', '_', 'v', 'e', 'l', 't', 'r', 'a', 'c', 'k', '_', 'c', 'c', '&'],
    []),
  -- "/region&/amp_veltrack_cc&", "f"
  (217, ['/', 'r', 'e', 'g', 'i', 'o', 'n', '&', '/', 'a', 'm', 'p', '_', 'v', 'e', 'l', 't', 'r', 'a', 'c', 'k', '_', 'c', 'c', '&'],
    ['f']),
  -- "/region&/amp_veltrack_curvecc&", ""
  (218, ['/', 'r', 'e', 'g', 'i', 'o', 'n', '&', '/', 'a', 'm', 'p', '_', 'v', 'e', 'l', 't', 'r', 'a', 'c', 'k', '_', 'c', 'u', 'r', 'v', 'e', 'c', 'c', '&'],
    []),
  -- "/region&/amp_veltrack_curvecc&", "i"
  (219, ['/', 'r', 'e', 'g', 'i', 'o', 'n', '&', '/', 'a', 'm', 'p', '_', 'v', 'e', 'l', 't', 'r', 'a', 'c', 'k', '_', 'c', 'u', 'r', 'v', 'e', 'c', 'c', '&'],
    ['i']),
  -- "/region&/amp_random", ""
  (220, ['/', 'r', 'e', 'g', 'i', 'o', 'n', '&', '/', 'a', 'm', 'p', '_', 'r', 'a', 'n', 'd', 'o', 'm'],
    []),
  -- "/region&/amp_random", "f"
  (221, ['/', 'r', 'e', 'g', 'i', 'o', 'n', '&', '/', 'a', 'm', 'p', '_', 'r', 'a', 'n', 'd', 'o', 'm'],
    ['f']),
  -- "/region&/xfin_key_range", ""
  (222, ['/', 'r', 'e', 'g', 'i', 'o', 'n', '&', '/', 'x', 'f', 'i', 'n', '_', 'k', 'e', 'y', '_', 'r', 'a', 'n', 'g', 'e'],
    []),
  -- "/region&/xfin_key_range", "ii"
  (223, ['/', 'r', 'e', 'g', 'i', 'o', 'n', '&', '/', 'x', 'f', 'i', 'n', '_', 'k', 'e', 'y', '_', 'r', 'a', 'n', 'g', 'e'],
    ['i', 'i']),
  -- "/region&/xfout_key_range", ""
  (224, ['/', 'r', 'e', 'g', 'i', 'o', 'n', '&', '/', 'x', 'f', 'o', 'u', 't', '_', 'k', 'e', 'y', '_', 'r', 'a', 'n', 'g', 'e'],
    []),
  -- "/region&/xfout_key_range", "ii"
  (225, ['/', 'r', 'e', 'g', 'i', 'o', 'n', '&', '/', 'x', 'f', 'o', 'u', 't', '_', 'k', 'e', 'y', '_', 'r', 'a', 'n', 'g', 'e'],
    ['i', 'i']),
  -- "/region&/xfin_vel_range", ""
  (226, ['/', 'r', 'e', 'g', 'i', 'o', 'n', '&', '/', 'x', 'f', 'i', 'n', '_', 'v', 'e', 'l', '_', 'r', 'a', 'n', 'g', 'e'],
    []),
  -- "/region&/xfin_vel_range", "ff"
  (227, ['/', 'r', 'e', 'g', 'i', 'o', 'n', '&', '/', 'x', 'f', 'i', 'n', '_', 'v', 'e', 'l', '_', 'r', 'a', 'n', 'g', 'e'],
    ['f', 'f']),
  -- "/region&/xfout_vel_range", ""
  (228, ['/', 'r', 'e', 'g', 'i', 'o', 'n', '&', '/', 'x', 'f', 'o', 'u', 't', '_', 'v', 'e', 'l', '_', 'r', 'a', 'n', 'g', 'e'],
    []),
  -- "/region&/xfout_vel_range", "ff"
  (229, ['/', 'r', 'e', 'g', 'i', 'o', 'n', '&', '/', 'x', 'f', 'o', 'u', 't', '_', 'v', 'e', 'l', '_', 'r', 'a', 'n', 'g', 'e'],
    ['f', 'f']),
  -- "/region&/xfin_cc_range&", ""
  (230, ['/', 'r', 'e', 'g', 'i', 'o', 'n', '&', '/', 'x', 'f', 'i', 'n', '_', 'c', 'c', '_', 'r', 'a', 'n', 'g', 'e', '&'],
    []),
  -- "/region&/xfin_cc_range&", "ff"
  (231, ['/', 'r', 'e', 'g', 'i', 'o', 'n', '&', '/', 'x', 'f', 'i', 'n', '_', 'c', 'c', '_', 'r', 'a', 'n', 'g', 'e', '&'],
    ['f', 'f']),
  -- "/region&/xfout_cc_range&", ""
  (232, ['/', 'r', 'e', 'g', 'i', 'o', 'n', '&', '/', 'x', 'f', 'o', 'u', 't', '_', 'c', 'c', '_', 'r', 'a', 'n', 'g', 'e', '&'],
    []),
  -- "/region&/xfout_cc_range&", "ff"
  (233, ['/', 'r', 'e', 'g', 'i', 'o', 'n', '&', '/', 'x', 'f', 'o', 'u', 't', '_', 'c', 'c', '_', 'r', 'a', 'n', 'g', 'e', '&'],
    ['f', 'f']),
  -- "/region&/xf_keycurve", ""
  (234, ['/', 'r', 'e', 'g', 'i', 'o', 'n', '&', '/', 'x', 'f', '_', 'k', 'e', 'y', 'c', 'u', 'r', 'v', 'e'],
    []),
  -- "/region&/xf_keycurve", "s"
  (235, ['/', 'r', 'e', 'g', 'i', 'o', 'n', '&', '/', 'x', 'f', '_', 'k', 'e', 'y', 'c', 'u', 'r', 'v', 'e'],
    ['s']),
  -- "/region&/xf_velcurve", ""
  (236, ['/', 'r', 'e', 'g', 'i', 'o', 'n', '&', '/', 'x', 'f', '_', 'v', 'e', 'l', 'c', 'u', 'r', 'v', 'e'],
    []),
  -- "/region&/xf_velcurve", "s"
  (237, ['/', 'r', 'e', 'g', 'i', 'o', 'n', '&', '/', 'x', 'f', '_', 'v', 'e', 'l', 'c', 'u', 'r', 'v', 'e'],
    ['s']),
  -- "/region&/xf_cccurve", ""
  (238, ['/', 'r', 'e', 'g', 'i', 'o', 'n', '&', '/', 'x', 'f', '_', 'c', 'c', 'c', 'u', 'r', 'v', 'e'],
    []),
  -- "/region&/xf_cccurve", "s"
  (239, ['/', 'r', 'e', 'g', 'i', 'o', 'n', '&', '/', 'x', 'f', '_', 'c', 'c', 'c', 'u', 'r', 'v', 'e'],
    ['s']),
  -- "/region&/global_volume", ""
  (240, ['/', 'r', 'e', 'g', 'i', 'o', 'n', '&', '/', 'g', 'l', 'o', 'b', 'a', 'l', '_', 'v', 'o', 'l', 'u', 'm', 'e'],
    []),
  -- "/region&/global_volume", "f"
  (241, ['/', 'r', 'e', 'g', 'i', 'o', 'n', '&', '/', 'g', 'l', 'o', 'b', 'a', 'l', '_', 'v', 'o', 'l', 'u', 'm', 'e'],
    ['f']),
  -- "/region&/master_volume", ""
  (242, ['/', 'r', 'e', 'g', 'i', 'o', 'n', '&', '/', 'm', 'a', 's', 't', 'e', 'r', '_', 'v', 'o', 'l', 'u', 'm', 'e'],
    []),
  -- "/region&/master_volume", "f"
  (243, ['/', 'r', 'e', 'g', 'i', 'o', 'n', '&', '/', 'm', 'a', 's', 't', 'e', 'r', '_', 'v', 'o', 'l', 'u', 'm', 'e'],
    ['f']),
  -- "/region&/group_volume", ""
  (244, ['/', 'r', 'e', 'g', 'i', 'o', 'n', '&', '/', 'g', 'r', 'o', 'u', 'p', '_', 'v', 'o', 'l', 'u', 'm', 'e'],
    []),
  -- "/region&/group_volume", "f"
  (245, ['/', 'r', 'e', 'g', 'i', 'o', 'n', '&', '/', 'g', 'r', 'o', 'u', 'p', '_', 'v', 'o', 'l', 'u', 'm', 'e'],
    ['f']),
  -- "/region&/global_amplitude", ""
  (246, ['/', 'r', 'e', 'g', 'i', 'o', 'n', '&', '/', 'g', 'l', 'o', 'b', 'a', 'l', '_', 'a', 'm', 'p', 'l', 'i', 't', 'u', 'd', 'e'],
    []),
  -- "/region&/global_amplitude", "f"
  (247, ['/', 'r', 'e', 'g', 'i', 'o', 'n', '&', '/', 'g', 'l', 'o', 'b', 'a', 'l', '_', 'a', 'm', 'p', 'l', 'i', 't', 'u', 'd', 'e'],
    ['f']),
  -- "/region&/master_amplitude", ""
  (248, ['/', 'r', 'e', 'g', 'i', 'o', 'n', '&', '/', 'm', 'a', 's', 't', 'e', 'r', '_', 'a', 'm', 'p', 'l', 'i', 't', 'u', 'd', 'e'],
    []),
  -- "/region&/master_amplitude", "f"
  (249, ['/', 'r', 'e', 'g', 'i', 'o', 'n', '&', '/', 'm', 'a', 's', 't', 'e', 'r', '_', 'a', 'm', 'p', 'l', 'i', 't', 'u', 'd', 'e'],
    ['f']),
  -- "/region&/group_amplitude", ""
  (250, ['/', 'r', 'e', 'g', 'i', 'o', 'n', '&', '/', 'g', 'r', 'o', 'u', 'p', '_', 'a', 'm', 'p', 'l', 'i', 't', 'u', 'd', 'e'],
    []),
  -- "/region&/group_amplitude", "f"
  (251, ['/', 'r', 'e', 'g', 'i', 'o', 'n', '&', '/', 'g', 'r', 'o', 'u', 'p', '_', 'a', 'm', 'p', 'l', 'i', 't', 'u', 'd', 'e'],
    ['f']),
  -- "/region&/pitch_keytrack", ""
  (252, ['/', 'r', 'e', 'g', 'i', 'o', 'n', '&', '/', 'p', 'i', 't', 'c', 'h', '_', 'k', 'e', 'y', 't', 'r', 'a', 'c', 'k'],
    []),
  -- "/region&/pitch_keytrack", "f"
  (253, ['/', 'r', 'e', 'g', 'i', 'o', 'n', '&', '/', 'p', 'i', 't', 'c', 'h', '_', 'k', 'e', 'y', 't', 'r', 'a', 'c', 'k'],
    ['f']),
  -- "/region&/pitch_veltrack", ""
  (254, ['/', 'r', 'e', 'g', 'i', 'o', 'n', '&', '/', 'p', 'i', 't', 'c', 'h', '_', 'v', 'e', 'l', 't', 'r', 'a', 'c', 'k'],
    []),
  -- "/region&/pitch_veltrack", "f"
  (255, ['/', 'r', 'e', 'g', 'i', 'o', 'n', '&', '/', 'p', 'i', 't', 'c', 'h', '_', 'v', 'e', 'l', 't', 'r', 'a', 'c', 'k'],
    ['f']),
  -- "/region&/pitch_veltrack_cc&", ""
  (256, ['/', 'r', 'e', 'g', 'i', 'o', 'n', '&', '/', 'p', 'i', 't', 'c', 'h', '_', 'v', 'e', 'l', 't', 'r', 'a', 'c', 'k', '_', 'c', 'c', '&'],
    []),
  -- "/region&/pitch_veltrack_cc&", "f"
  (257, ['/', 'r', 'e', 'g', 'i', 'o', 'n', '&', '/', 'p', 'i', 't', 'c', 'h', '_', 'v', 'e', 'l', 't', 'r', 'a', 'c', 'k', '_', 'c', 'c', '&'],
    ['f']),
  -- "/region&/pitch_veltrack_curvecc&", ""
  (258, ['/', 'r', 'e', 'g', 'i', 'o', 'n', '&', '/', 'p', 'i', 't', 'c', 'h', '_', 'v', 'e', 'l', 't', 'r', 'a', 'c', 'k', '_', 'c', 'u', 'r', 'v', 'e', 'c', 'c', '&'],
    []),
  -- "/region&/pitch_veltrack_curvecc&", "i"
  (259, ['/', 'r', 'e', 'g', 'i', 'o', 'n', '&', '/', 'p', 'i', 't', 'c', 'h', '_', 'v', 'e', 'l', 't', 'r', 'a', 'c', 'k', '_', 'c', 'u', 'r', 'v', 'e', 'c', 'c', '&'],
    ['i']),
  -- "/region&/pitch_random", ""
  (260, ['/', 'r', 'e', 'g', 'i', 'o', 'n', '&', '/', 'p', 'i', 't', 'c', 'h', '_', 'r', 'a', 'n', 'd', 'o', 'm'],
    []),
  -- "/region&/pitch_random", "f"
  (261, ['/', 'r', 'e', 'g', 'i', 'o', 'n', '&', '/', 'p', 'i', 't', 'c', 'h', '_', 'r', 'a', 'n', 'd', 'o', 'm'],
    ['f']),
  -- "/region&/transpose", ""
  (262, ['/', 'r', 'e', 'g', 'i', 'o', 'n', '&', '/', 't', 'r', 'a', 'n', 's', 'p', 'o', 's', 'e'],
    []),
  -- "/region&/transpose", "f"
  (263, ['/', 'r', 'e', 'g', 'i', 'o', 'n', '&', '/', 't', 'r', 'a', 'n', 's', 'p', 'o', 's', 'e'],
    ['f']),
  -- "/region&/pitch", ""
  (264, ['/', 'r', 'e', 'g', 'i', 'o', 'n', '&', '/', 'p', 'i', 't', 'c', 'h'],
    []),
  -- "/region&/pitch", "f"
  (265, ['/', 'r', 'e', 'g', 'i', 'o', 'n', '&', '/', 'p', 'i', 't', 'c', 'h'],
    ['f']),
  -- "/region&/pitch_cc&", ""
  (266, ['/', 'r', 'e', 'g', 'i', 'o', 'n', '&', '/', 'p', 'i', 't', 'c', 'h', '_', 'c', 'c', '&'],
    []),
  -- "/region&/pitch_stepcc&", ""
  (267, ['/', 'r', 'e', 'g', 'i', 'o', 'n', '&', '/', 'p', 'i', 't', 'c', 'h', '_', 's', 't', 'e', 'p', 'c', 'c', '&'],
    []),
  -- "/region&/pitch_smoothcc&", ""
  (268, ['/', 'r', 'e', 'g', 'i', 'o', 'n', '&', '/', 'p', 'i', 't', 'c', 'h', '_', 's', 'm', 'o', 'o', 't', 'h', 'c', 'c', '&'],
    []),
  -- "/region&/pitch_curvecc&", ""
  (269, ['/', 'r', 'e', 'g', 'i', 'o', 'n', '&', '/', 'p', 'i', 't', 'c', 'h', '_', 'c', 'u', 'r', 'v', 'e', 'c', 'c', '&'],
    []),
  -- "/region&/bend_up", ""
  (270, ['/', 'r', 'e', 'g', 'i', 'o', 'n', '&', '/', 'b', 'e', 'n', 'd', '_', 'u', 'p'],
    []),
  -- "/region&/bend_up", "f"
  (271, ['/', 'r', 'e', 'g', 'i', 'o', 'n', '&', '/', 'b', 'e', 'n', 'd', '_', 'u', 'p'],
    ['f']),
  -- "/region&/bend_down", ""
  (272, ['/', 'r', 'e', 'g', 'i', 'o', 'n', '&', '/', 'b', 'e', 'n', 'd', '_', 'd', 'o', 'w', 'n'],
    []),
  -- "/region&/bend_down", "f"
  (273, ['/', 'r', 'e', 'g', 'i', 'o', 'n', '&', '/', 'b', 'e', 'n', 'd', '_', 'd', 'o', 'w', 'n'],
    ['f']),
  -- "/region&/bend_step", ""
  (274, ['/', 'r', 'e', 'g', 'i', 'o', 'n', '&', '/', 'b', 'e', 'n', 'd', '_', 's', 't', 'e', 'p'],
    []),
  -- "/region&/bend_step", "f"
  (275, ['/', 'r', 'e', 'g', 'i', 'o', 'n', '&', '/', 'b', 'e', 'n', 'd', '_', 's', 't', 'e', 'p'],
    ['f']),
  -- "/region&/bend_smooth", ""
  (276, ['/', 'r', 'e', 'g', 'i', 'o', 'n', '&', '/', 'b', 'e', 'n', 'd', '_', 's', 'm', 'o', 'o', 't', 'h'],
    []),
  -- "/region&/bend_smooth", "i"
  (277, ['/', 'r', 'e', 'g', 'i', 'o', 'n', '&', '/', 'b', 'e', 'n', 'd', '_', 's', 'm', 'o', 'o', 't', 'h'],
    ['i']),
  -- "/region&/ampeg_attack", ""
  (278, ['/', 'r', 'e', 'g', 'i', 'o', 'n', '&', '/', 'a', 'm', 'p', 'e', 'g', '_', 'a', 't', 't', 'a', 'c', 'k'],
    []),
  -- "/region&/ampeg_delay", ""
  (279, ['/', 'r', 'e', 'g', 'i', 'o', 'n', '&', '/', 'a', 'm', 'p', 'e', 'g', '_', 'd', 'e', 'l', 'a', 'y'],
    []),
  -- "/region&/ampeg_decay", ""
  (280, ['/', 'r', 'e', 'g', 'i', 'o', 'n', '&', '/', 'a', 'm', 'p', 'e', 'g', '_', 'd', 'e', 'c', 'a', 'y'],
    []),
  -- "/region&/ampeg_hold", ""
  (281, ['/', 'r', 'e', 'g', 'i', 'o', 'n', '&', '/', 'a', 'm', 'p', 'e', 'g', '_', 'h', 'o', 'l', 'd'],
    []),
  -- "/region&/ampeg_release", ""
  (282, ['/', 'r', 'e', 'g', 'i', 'o', 'n', '&', '/', 'a', 'm', 'p', 'e', 'g', '_', 'r', 'e', 'l', 'e', 'a', 's', 'e'],
    []),
  -- "/region&/ampeg_start", ""
  (283, ['/', 'r', 'e', 'g', 'i', 'o', 'n', '&', '/', 'a', 'm', 'p', 'e', 'g', '_', 's', 't', 'a', 'r', 't'],
    []),
  -- "/region&/ampeg_sustain", ""
  (284, ['/', 'r', 'e', 'g', 'i', 'o', 'n', '&', '/', 'a', 'm', 'p', 'e', 'g', '_', 's', 'u', 's', 't', 'a', 'i', 'n'],
    []),
  -- "/region&/ampeg_depth", ""
  (285, ['/', 'r', 'e', 'g', 'i', 'o', 'n', '&', '/', 'a', 'm', 'p', 'e', 'g', '_', 'd', 'e', 'p', 't', 'h'],
    []),
  -- "/region&/ampeg_attack_cc&", ""
  (286, ['/', 'r', 'e', 'g', 'i', 'o', 'n', '&', '/', 'a', 'm', 'p', 'e', 'g', '_', 'a', 't', 't', 'a', 'c', 'k', '_', 'c', 'c', '&'],
    []),
  -- "/region&/ampeg_attack_curvecc&", ""
  (287, ['/', 'r', 'e', 'g', 'i', 'o', 'n', '&', '/', 'a', 'm', 'p', 'e', 'g', '_', 'a', 't', 't', 'a', 'c', 'k', '_', 'c', 'u', 'r', 'v', 'e', 'c', 'c', '&'],
    []),
  -- "/region&/ampeg_decay_cc&", ""
  (288, ['/', 'r', 'e', 'g', 'i', 'o', 'n', '&', '/', 'a', 'm', 'p', 'e', 'g', '_', 'd', 'e', 'c', 'a', 'y', '_', 'c', 'c', '&'],
    []),
  -- "/region&/ampeg_decay_curvecc&", ""
  (289, ['/', 'r', 'e', 'g', 'i', 'o', 'n', '&', '/', 'a', 'm', 'p', 'e', 'g', '_', 'd', 'e', 'c', 'a', 'y', '_', 'c', 'u', 'r', 'v', 'e', 'c', 'c', '&'],
    []),
  -- "/region&/ampeg_delay_cc&", ""
  (290, ['/', 'r', 'e', 'g', 'i', 'o', 'n', '&', '/', 'a', 'm', 'p', 'e', 'g', '_', 'd', 'e', 'l', 'a', 'y', '_', 'c', 'c', '&'],
    []),
  -- "/region&/ampeg_delay_curvecc&", ""
  (291, ['/', 'r', 'e', 'g', 'i', 'o', 'n', '&', '/', 'a', 'm', 'p', 'e', 'g', '_', 'd', 'e', 'l', 'a', 'y', '_', 'c', 'u', 'r', 'v', 'e', 'c', 'c', '&'],
    []),
  -- "/region&/ampeg_hold_cc&", ""
  (292, ['/', 'r', 'e', 'g', 'i', 'o', 'n', '&', '/', 'a', 'm', 'p', 'e', 'g', '_', 'h', 'o', 'l', 'd', '_', 'c', 'c', '&'],
    []),
  -- "/region&/ampeg_hold_curvecc&", ""
  (293, ['/', 'r', 'e', 'g', 'i', 'o', 'n', '&', '/', 'a', 'm', 'p', 'e', 'g', '_', 'h', 'o', 'l', 'd', '_', 'c', 'u', 'r', 'v', 'e', 'c', 'c', '&'],
    []),
  -- "/region&/ampeg_release_cc&", ""
  (294, ['/', 'r', 'e', 'g', 'i', 'o', 'n', '&', '/', 'a', 'm', 'p', 'e', 'g', '_', 'r', 'e', 'l', 'e', 'a', 's', 'e', '_', 'c', 'c', '&'],
    []),
  -- "/region&/ampeg_release_curvecc&", ""
  (295, ['/', 'r', 'e', 'g', 'i', 'o', 'n', '&', '/', 'a', 'm', 'p', 'e', 'g', '_', 'r', 'e', 'l', 'e', 'a', 's', 'e', '_', 'c', 'u', 'r', 'v', 'e', 'c', 'c', '&'],
    []),
  -- "/region&/ampeg_sustain_cc&", ""
  (296, ['/', 'r', 'e', 'g', 'i', 'o', 'n', '&', '/', 'a', 'm', 'p', 'e', 'g', '_', 's', 'u', 's', 't', 'a', 'i', 'n', '_', 'c', 'c', '&'],
    []),
  -- "/region&/ampeg_sustain_curvecc&", ""
  (297, ['/', 'r', 'e', 'g', 'i', 'o', 'n', '&', '/', 'a', 'm', 'p', 'e', 'g', '_', 's', 'u', 's', 't', 'a', 'i', 'n', '_', 'c', 'u', 'r', 'v', 'e', 'c', 'c', '&'],
    []),
  -- "/region&/ampeg_start_cc&", ""
  (298, ['/', 'r', 'e', 'g', 'i', 'o', 'n', '&', '/', 'a', 'm', 'p', 'e', 'g', '_', 's', 't', 'a', 'r', 't', '_', 'c', 'c', '&'],
    []),
  -- "/region&/ampeg_start_curvecc&", ""
  (299, ['/', 'r', 'e', 'g', 'i', 'o', 'n', '&', '/', 'a', 'm', 'p', 'e', 'g', '_', 's', 't', 'a', 'r', 't', '_', 'c', 'u', 'r', 'v', 'e', 'c', 'c', '&'],
    []),
  -- "/region&/ampeg_vel&attack", ""
  (300, ['/', 'r', 'e', 'g', 'i', 'o', 'n', '&', '/', 'a', 'm', 'p', 'e', 'g', '_', 'v', 'e', 'l', '&', 'a', 't', 't', 'a', 'c', 'k'],
    []),
  -- "/region&/ampeg_vel&delay", ""
  (301, ['/', 'r', 'e', 'g', 'i', 'o', 'n', '&', '/', 'a', 'm', 'p', 'e', 'g', '_', 'v', 'e', 'l', '&', 'd', 'e', 'l', 'a', 'y'],
    []),
  -- "/region&/ampeg_vel&decay", ""
  (302, ['/', 'r', 'e', 'g', 'i', 'o', 'n', '&', '/', 'a', 'm', 'p', 'e', 'g', '_', 'v', 'e', 'l', '&', 'd', 'e', 'c', 'a', 'y'],
    []),
  -- "/region&/ampeg_vel&hold", ""
  (303, ['/', 'r', 'e', 'g', 'i', 'o', 'n', '&', '/', 'a', 'm', 'p', 'e', 'g', '_', 'v', 'e', 'l', '&', 'h', 'o', 'l', 'd'],
    []),
  -- "/region&/ampeg_vel&release", ""
  (304, ['/', 'r', 'e', 'g', 'i', 'o', 'n', '&', '/', 'a', 'm', 'p', 'e', 'g', '_', 'v', 'e', 'l', '&', 'r', 'e', 'l', 'e', 'a', 's', 'e'],
    []),
  -- "/region&/ampeg_vel&sustain", ""
  (305, ['/', 'r', 'e', 'g', 'i', 'o', 'n', '&', '/', 'a', 'm', 'p', 'e', 'g', '_', 'v', 'e', 'l', '&', 's', 'u', 's', 't', 'a', 'i', 'n'],
    []),
  -- "/region&/ampeg_vel&depth", ""
  (306, ['/', 'r', 'e', 'g', 'i', 'o', 'n', '&', '/', 'a', 'm', 'p', 'e', 'g', '_', 'v', 'e', 'l', '&', 'd', 'e', 'p', 't', 'h'],
    []),
  -- "/region&/ampeg_dynamic", ""
  (307, ['/', 'r', 'e', 'g', 'i', 'o', 'n', '&', '/', 'a', 'm', 'p', 'e', 'g', '_', 'd', 'y', 'n', 'a', 'm', 'i', 'c'],
    []),
  -- "/region&/ampeg_attack", "f"
  (308, ['/', 'r', 'e', 'g', 'i', 'o', 'n', '&', '/', 'a', 'm', 'p', 'e', 'g', '_', 'a', 't', 't', 'a', 'c', 'k'],
    ['f']),
  -- "/region&/ampeg_delay", "f"
  (309, ['/', 'r', 'e', 'g', 'i', 'o', 'n', '&', '/', 'a', 'm', 'p', 'e', 'g', '_', 'd', 'e', 'l', 'a', 'y'],
    ['f']),
  -- "/region&/ampeg_decay", "f"
  (310, ['/', 'r', 'e', 'g', 'i', 'o', 'n', '&', '/', 'a', 'm', 'p', 'e', 'g', '_', 'd', 'e', 'c', 'a', 'y'],
    ['f']),
  -- "/region&/ampeg_hold", "f"
  (311, ['/', 'r', 'e', 'g', 'i', 'o', 'n', '&', '/', 'a', 'm', 'p', 'e', 'g', '_', 'h', 'o', 'l', 'd'],
    ['f']),
  -- "/region&/ampeg_release", "f"
  (312, ['/', 'r', 'e', 'g', 'i', 'o', 'n', '&', '/', 'a', 'm', 'p', 'e', 'g', '_', 'r', 'e', 'l', 'e', 'a', 's', 'e'],
    ['f']),
  -- "/region&/ampeg_start", "f"
  (313, ['/', 'r', 'e', 'g', 'i', 'o', 'n', '&', '/', 'a', 'm', 'p', 'e', 'g', '_', 's', 't', 'a', 'r', 't'],
    ['f']),
  -- "/region&/ampeg_sustain", "f"
  (314, ['/', 'r', 'e', 'g', 'i', 'o', 'n', '&', '/', 'a', 'm', 'p', 'e', 'g', '_', 's', 'u', 's', 't', 'a', 'i', 'n'],
    ['f']),
  -- "/region&/ampeg_depth", "f"
  (315, ['/', 'r', 'e', 'g', 'i', 'o', 'n', '&', '/', 'a', 'm', 'p', 'e', 'g', '_', 'd', 'e', 'p', 't', 'h'],
    ['f']),
  -- "/region&/ampeg_attack_cc&", "f"
  (316, ['/', 'r', 'e', 'g', 'i', 'o', 'n', '&', '/', 'a', 'm', 'p', 'e', 'g', '_', 'a', 't', 't', 'a', 'c', 'k', '_', 'c', 'c', '&'],
    ['f']),
  -- "/region&/ampeg_attack_curvecc&", "i"
  (317, ['/', 'r', 'e', 'g', 'i', 'o', 'n', '&', '/', 'a', 'm', 'p', 'e', 'g', '_', 'a', 't', 't', 'a', 'c', 'k', '_', 'c', 'u', 'r', 'v', 'e', 'c', 'c', '&'],
    ['i']),
  -- "/region&/ampeg_decay_cc&", "f"
  (318, ['/', 'r', 'e', 'g', 'i', 'o', 'n', '&', '/', 'a', 'm', 'p', 'e', 'g', '_', 'd', 'e', 'c', 'a', 'y', '_', 'c', 'c', '&'],
    ['f']),
  -- "/region&/ampeg_decay_curvecc&", "i"
  (319, ['/', 'r', 'e', 'g', 'i', 'o', 'n', '&', '/', 'a', 'm', 'p', 'e', 'g', '_', 'd', 'e', 'c', 'a', 'y', '_', 'c', 'u', 'r', 'v', 'e', 'c', 'c', '&'],
    ['i']),
  -- "/region&/ampeg_delay_cc&", "f"
  (320, ['/', 'r', 'e', 'g', 'i', 'o', 'n', '&', '/', 'a', 'm', 'p', 'e', 'g', '_', 'd', 'e', 'l', 'a', 'y', '_', 'c', 'c', '&'],
    ['f']),
  -- "/region&/ampeg_delay_curvecc&", "i"
  (321, ['/', 'r', 'e', 'g', 'i', 'o', 'n', '&', '/', 'a', 'm', 'p', 'e', 'g', '_', 'd', 'e', 'l', 'a', 'y', '_', 'c', 'u', 'r', 'v', 'e', 'c', 'c', '&'],
    ['i']),
  -- "/region&/ampeg_hold_cc&", "f"
  (322, ['/', 'r', 'e', 'g', 'i', 'o', 'n', '&', '/', 'a', 'm', 'p', 'e', 'g', '_', 'h', 'o', 'l', 'd', '_', 'c', 'c', '&'],
    ['f']),
  -- "/region&/ampeg_hold_curvecc&", "i"
  (323, ['/', 'r', 'e', 'g', 'i', 'o', 'n', '&', '/', 'a', 'm', 'p', 'e', 'g', '_', 'h', 'o', 'l', 'd', '_', 'c', 'u', 'r', 'v', 'e', 'c', 'c', '&'],
    ['i']),
  -- "/region&/ampeg_release_cc&", "f"
  (324, ['/', 'r', 'e', 'g', 'i', 'o', 'n', '&', '/', 'a', 'm', 'p', 'e', 'g', '_', 'r', 'e', 'l', 'e', 'a', 's', 'e', '_', 'c', 'c', '&'],
    ['f']),
  -- "/region&/ampeg_release_curvecc&", "i"
  (325, ['/', 'r', 'e', 'g', 'i', 'o', 'n', '&', '/', 'a', 'm', 'p', 'e', 'g', '_', 'r', 'e', 'l', 'e', 'a', 's', 'e', '_', 'c', 'u', 'r', 'v', 'e', 'c', 'c', '&'],
    ['i']),
  -- "/region&/ampeg_sustain_cc&", "f"
  (326, ['/', 'r', 'e', 'g', 'i', 'o', 'n', '&', '/', 'a', 'm', 'p', 'e', 'g', '_', 's', 'u', 's', 't', 'a', 'i', 'n', '_', 'c', 'c', '&'],
    ['f']),
  -- "/region&/ampeg_sustain_curvecc&", "i"
  (327, ['/', 'r', 'e', 'g', 'i', 'o', 'n', '&', '/', 'a', 'm', 'p', 'e', 'g', '_', 's', 'u', 's', 't', 'a', 'i', 'n', '_', 'c', 'u', 'r', 'v', 'e', 'c', 'c', '&'],
    ['i']),
  -- "/region&/ampeg_start_cc&", "f"
  (328, ['/', 'r', 'e', 'g', 'i', 'o', 'n', '&', '/', 'a', 'm', 'p', 'e', 'g', '_', 's', 't', 'a', 'r', 't', '_', 'c', 'c', '&'],
    ['f']),
  -- "/region&/ampeg_start_curvecc&", "i"
  (329, ['/', 'r', 'e', 'g', 'i', 'o', 'n', '&', '/', 'a', 'm', 'p', 'e', 'g', '_', 's', 't', 'a', 'r', 't', '_', 'c', 'u', 'r', 'v', 'e', 'c', 'c', '&'],
    ['i']),
  -- "/region&/ampeg_vel&attack", "f"
  (330, ['/', 'r', 'e', 'g', 'i', 'o', 'n', '&', '/', 'a', 'm', 'p', 'e', 'g', '_', 'v', 'e', 'l', '&', 'a', 't', 't', 'a', 'c', 'k'],
    ['f']),
  -- "/region&/ampeg_vel&delay", "f"
  (331, ['/', 'r', 'e', 'g', 'i', 'o', 'n', '&', '/', 'a', 'm', 'p', 'e', 'g', '_', 'v', 'e', 'l', '&', 'd', 'e', 'l', 'a', 'y'],
    ['f']),
  -- "/region&/ampeg_vel&decay", "f"
  (332, ['/', 'r', 'e', 'g', 'i', 'o', 'n', '&', '/', 'a', 'm', 'p', 'e', 'g', '_', 'v', 'e', 'l', '&', 'd', 'e', 'c', 'a', 'y'],
    ['f']),
  -- "/region&/ampeg_vel&hold", "f"
  (333, ['/', 'r', 'e', 'g', 'i', 'o', 'n', '&', '/', 'a', 'm', 'p', 'e', 'g', '_', 'v', 'e', 'l', '&', 'h', 'o', 'l', 'd'],
    ['f']),
  -- "/region&/ampeg_vel&release", "f"
  (334, ['/', 'r', 'e', 'g', 'i', 'o', 'n', '&', '/', 'a', 'm', 'p', 'e', 'g', '_', 'v', 'e', 'l', '&', 'r', 'e', 'l', 'e', 'a', 's', 'e'],
    ['f']),
  -- "/region&/ampeg_vel&sustain", "f"
  (335, ['/', 'r', 'e', 'g', 'i', 'o', 'n', '&', '/', 'a', 'm', 'p', 'e', 'g', '_', 'v', 'e', 'l', '&', 's', 'u', 's', 't', 'a', 'i', 'n'],
    ['f']),
  -- "/region&/ampeg_vel&depth", "f"
  (336, ['/', 'r', 'e', 'g', 'i', 'o', 'n', '&', '/', 'a', 'm', 'p', 'e', 'g', '_', 'v', 'e', 'l', '&', 'd', 'e', 'p', 't', 'h'],
    ['f']),
  -- "/region&/ampeg_dynamic", "T"
  (337, ['/', 'r', 'e', 'g', 'i', 'o', 'n', '&', '/', 'a', 'm', 'p', 'e', 'g', '_', 'd', 'y', 'n', 'a', 'm', 'i', 'c'],
    ['T']),
  -- "/region&/ampeg_dynamic", "F"
  (338, ['/', 'r', 'e', 'g', 'i', 'o', 'n', '&', '/', 'a', 'm', 'p', 'e', 'g', '_', 'd', 'y', 'n', 'a', 'm', 'i', 'c'],
    ['F']),
  -- "/region&/ampeg_dynamic", "s"
  (339, ['/', 'r', 'e', 'g', 'i', 'o', 'n', '&', '/', 'a', 'm', 'p', 'e', 'g', '_', 'd', 'y', 'n', 'a', 'm', 'i', 'c'],
    ['s']),
  -- "/region&/fileg_attack", ""
  (340, ['/', 'r', 'e', 'g', 'i', 'o', 'n', '&', '/', 'f', 'i', 'l', 'e', 'g', '_', 'a', 't', 't', 'a', 'c', 'k'],
    []),
  -- "/region&/fileg_delay", ""
  (341, ['/', 'r', 'e', 'g', 'i', 'o', 'n', '&', '/', 'f', 'i', 'l', 'e', 'g', '_', 'd', 'e', 'l', 'a', 'y'],
    []),
  -- "/region&/fileg_decay", ""
  (342, ['/', 'r', 'e', 'g', 'i', 'o', 'n', '&', '/', 'f', 'i', 'l', 'e', 'g', '_', 'd', 'e', 'c', 'a', 'y'],
    []),
  -- "/region&/fileg_hold", ""
  (343, ['/', 'r', 'e', 'g', 'i', 'o', 'n', '&', '/', 'f', 'i', 'l', 'e', 'g', '_', 'h', 'o', 'l', 'd'],
    []),
  -- "/region&/fileg_release", ""
  (344, ['/', 'r', 'e', 'g', 'i', 'o', 'n', '&', '/', 'f', 'i', 'l', 'e', 'g', '_', 'r', 'e', 'l', 'e', 'a', 's', 'e'],
    []),
  -- "/region&/fileg_start", ""
  (345, ['/', 'r', 'e', 'g', 'i', 'o', 'n', '&', '/', 'f', 'i', 'l', 'e', 'g', '_', 's', 't', 'a', 'r', 't'],
    []),
  -- "/region&/fileg_sustain", ""
  (346, ['/', 'r', 'e', 'g', 'i', 'o', 'n', '&', '/', 'f', 'i', 'l', 'e', 'g', '_', 's', 'u', 's', 't', 'a', 'i', 'n'],
    []),
  -- "/region&/fileg_depth", ""
  (347, ['/', 'r', 'e', 'g', 'i', 'o', 'n', '&', '/', 'f', 'i', 'l', 'e', 'g', '_', 'd', 'e', 'p', 't', 'h'],
    []),
  -- "/region&/fileg_attack_cc&", ""
  (348, ['/', 'r', 'e', 'g', 'i', 'o', 'n', '&', '/', 'f', 'i', 'l', 'e', 'g', '_', 'a', 't', 't', 'a', 'c', 'k', '_', 'c', 'c', '&'],
    []),
  -- "/region&/fileg_attack_curvecc&", ""
  (349, ['/', 'r', 'e', 'g', 'i', 'o', 'n', '&', '/', 'f', 'i', 'l', 'e', 'g', '_', 'a', 't', 't', 'a', 'c', 'k', '_', 'c', 'u', 'r', 'v', 'e', 'c', 'c', '&'],
    []),
  -- "/region&/fileg_decay_cc&", ""
  (350, ['/', 'r', 'e', 'g', 'i', 'o', 'n', '&', '/', 'f', 'i', 'l', 'e', 'g', '_', 'd', 'e', 'c', 'a', 'y', '_', 'c', 'c', '&'],
    []),
  -- "/region&/fileg_decay_curvecc&", ""
  (351, ['/', 'r', 'e', 'g', 'i', 'o', 'n', '&', '/', 'f', 'i', 'l', 'e', 'g', '_', 'd', 'e', 'c', 'a', 'y', '_', 'c', 'u', 'r', 'v', 'e', 'c', 'c', '&'],
    []),
  -- "/region&/fileg_delay_cc&", ""
  (352, ['/', 'r', 'e', 'g', 'i', 'o', 'n', '&', '/', 'f', 'i', 'l', 'e', 'g', '_', 'd', 'e', 'l', 'a', 'y', '_', 'c', 'c', '&'],
    []),
  -- "/region&/fileg_delay_curvecc&", ""
  (353, ['/', 'r', 'e', 'g', 'i', 'o', 'n', '&', '/', 'f', 'i', 'l', 'e', 'g', '_', 'd', 'e', 'l', 'a', 'y', '_', 'c', 'u', 'r', 'v', 'e', 'c', 'c', '&'],
    []),
  -- "/region&/fileg_hold_cc&", ""
  (354, ['/', 'r', 'e', 'g', 'i', 'o', 'n', '&', '/', 'f', 'i', 'l', 'e', 'g', '_', 'h', 'o', 'l', 'd', '_', 'c', 'c', '&'],
    []),
  -- "/region&/fileg_hold_curvecc&", ""
  (355, ['/', 'r', 'e', 'g', 'i', 'o', 'n', '&', '/', 'f', 'i', 'l', 'e', 'g', '_', 'h', 'o', 'l', 'd', '_', 'c', 'u', 'r', 'v', 'e', 'c', 'c', '&'],
    []),
  -- "/region&/fileg_release_cc&", ""
  (356, ['/', 'r', 'e', 'g', 'i', 'o', 'n', '&', '/', 'f', 'i', 'l', 'e', 'g', '_', 'r', 'e', 'l', 'e', 'a', 's', 'e', '_', 'c', 'c', '&'],
    []),
  -- "/region&/fileg_release_curvecc&", ""
  (357, ['/', 'r', 'e', 'g', 'i', 'o', 'n', '&', '/', 'f', 'i', 'l', 'e', 'g', '_', 'r', 'e', 'l', 'e', 'a', 's', 'e', '_', 'c', 'u', 'r', 'v', 'e', 'c', 'c', '&'],
    []),
  -- "/region&/fileg_sustain_cc&", ""
  (358, ['/', 'r', 'e', 'g', 'i', 'o', 'n', '&', '/', 'f', 'i', 'l', 'e', 'g', '_', 's', 'u', 's', 't', 'a', 'i', 'n', '_', 'c', 'c', '&'],
    []),
  -- "/region&/fileg_sustain_curvecc&", ""
  (359, ['/', 'r', 'e', 'g', 'i', 'o', 'n', '&', '/', 'f', 'i', 'l', 'e', 'g', '_', 's', 'u', 's', 't', 'a', 'i', 'n', '_', 'c', 'u', 'r', 'v', 'e', 'c', 'c', '&'],
    []),
  -- "/region&/fileg_start_cc&", ""
  (360, ['/', 'r', 'e', 'g', 'i', 'o', 'n', '&', '/', 'f', 'i', 'l', 'e', 'g', '_', 's', 't', 'a', 'r', 't', '_', 'c', 'c', '&'],
    []),
  -- "/region&/fileg_start_curvecc&", ""
  (361, ['/', 'r', 'e', 'g', 'i', 'o', 'n', '&', '/', 'f', 'i', 'l', 'e', 'g', '_', 's', 't', 'a', 'r', 't', '_', 'c', 'u', 'r', 'v', 'e', 'c', 'c', '&'],
    []),
  -- "/region&/fileg_dynamic", ""
  (362, ['/', 'r', 'e', 'g', 'i', 'o', 'n', '&', '/', 'f', 'i', 'l', 'e', 'g', '_', 'd', 'y', 'n', 'a', 'm', 'i', 'c'],
    []),
  -- "/region&/fileg_attack", "f"
  (363, ['/', 'r', 'e', 'g', 'i', 'o', 'n', '&', '/', 'f', 'i', 'l', 'e', 'g', '_', 'a', 't', 't', 'a', 'c', 'k'],
    ['f']),
  -- "/region&/fileg_delay", "f"
  (364, ['/', 'r', 'e', 'g', 'i', 'o', 'n', '&', '/', 'f', 'i', 'l', 'e', 'g', '_', 'd', 'e', 'l', 'a', 'y'],
    ['f']),
  -- "/region&/fileg_decay", "f"
  (365, ['/', 'r', 'e', 'g', 'i', 'o', 'n', '&', '/', 'f', 'i', 'l', 'e', 'g', '_', 'd', 'e', 'c', 'a', 'y'],
    ['f']),
  -- "/region&/fileg_hold", "f"
  (366, ['/', 'r', 'e', 'g', 'i', 'o', 'n', '&', '/', 'f', 'i', 'l', 'e', 'g', '_', 'h', 'o', 'l', 'd'],
    ['f']),
  -- "/region&/fileg_release", "f"
  (367, ['/', 'r', 'e', 'g', 'i', 'o', 'n', '&', '/', 'f', 'i', 'l', 'e', 'g', '_', 'r', 'e', 'l', 'e', 'a', 's', 'e'],
    ['f']),
  -- "/region&/fileg_start", "f"
  (368, ['/', 'r', 'e', 'g', 'i', 'o', 'n', '&', '/', 'f', 'i', 'l', 'e', 'g', '_', 's', 't', 'a', 'r', 't'],
    ['f']),
  -- "/region&/fileg_sustain", "f"
  (369, ['/', 'r', 'e', 'g', 'i', 'o', 'n', '&', '/', 'f', 'i', 'l', 'e', 'g', '_', 's', 'u', 's', 't', 'a', 'i', 'n'],
    ['f']),
  -- "/region&/fileg_depth", "f"
  (370, ['/', 'r', 'e', 'g', 'i', 'o', 'n', '&', '/', 'f', 'i', 'l', 'e', 'g', '_', 'd', 'e', 'p', 't', 'h'],
    ['f']),
  -- "/region&/fileg_attack_cc&", "f"
  (371, ['/', 'r', 'e', 'g', 'i', 'o', 'n', '&', '/', 'f', 'i', 'l', 'e', 'g', '_', 'a', 't', 't', 'a', 'c', 'k', '_', 'c', 'c', '&'],
    ['f']),
  -- "/region&/fileg_attack_curvecc&", "i"
  (372, ['/', 'r', 'e', 'g', 'i', 'o', 'n', '&', '/', 'f', 'i', 'l', 'e', 'g', '_', 'a', 't', 't', 'a', 'c', 'k', '_', 'c', 'u', 'r', 'v', 'e', 'c', 'c', '&'],
    ['i']),
  -- "/region&/fileg_decay_cc&", "f"
  (373, ['/', 'r', 'e', 'g', 'i', 'o', 'n', '&', '/', 'f', 'i', 'l', 'e', 'g', '_', 'd', 'e', 'c', 'a', 'y', '_', 'c', 'c', '&'],
    ['f']),
  -- "/region&/fileg_decay_curvecc&", "i"
  (374, ['/', 'r', 'e', 'g', 'i', 'o', 'n', '&', '/', 'f', 'i', 'l', 'e', 'g', '_', 'd', 'e', 'c', 'a', 'y', '_', 'c', 'u', 'r', 'v', 'e', 'c', 'c', '&'],
    ['i']),
  -- "/region&/fileg_delay_cc&", "f"
  (375, ['/', 'r', 'e', 'g', 'i', 'o', 'n', '&', '/', 'f', 'i', 'l', 'e', 'g', '_', 'd', 'e', 'l', 'a', 'y', '_', 'c', 'c', '&'],
    ['f']),
  -- "/region&/fileg_delay_curvecc&", "i"
  (376, ['/', 'r', 'e', 'g', 'i', 'o', 'n', '&', '/', 'f', 'i', 'l', 'e', 'g', '_', 'd', 'e', 'l', 'a', 'y', '_', 'c', 'u', 'r', 'v', 'e', 'c', 'c', '&'],
    ['i']),
  -- "/region&/fileg_hold_cc&", "f"
  (377, ['/', 'r', 'e', 'g', 'i', 'o', 'n', '&', '/', 'f', 'i', 'l', 'e', 'g', '_', 'h', 'o', 'l', 'd', '_', 'c', 'c', '&'],
    ['f']),
  -- "/region&/fileg_hold_curvecc&", "i"
  (378, ['/', 'r', 'e', 'g', 'i', 'o', 'n', '&', '/', 'f', 'i', 'l', 'e', 'g', '_', 'h', 'o', 'l', 'd', '_', 'c', 'u', 'r', 'v', 'e', 'c', 'c', '&'],
    ['i']),
  -- "/region&/fileg_release_cc&", "f"
  (379, ['/', 'r', 'e', 'g', 'i', 'o', 'n', '&', '/', 'f', 'i', 'l', 'e', 'g', '_', 'r', 'e', 'l', 'e', 'a', 's', 'e', '_', 'c', 'c', '&'],
    ['f']),
  -- "/region&/fileg_release_curvecc&", "i"
  (380, ['/', 'r', 'e', 'g', 'i', 'o', 'n', '&', '/', 'f', 'i', 'l', 'e', 'g', '_', 'r', 'e', 'l', 'e', 'a', 's', 'e', '_', 'c', 'u', 'r', 'v', 'e', 'c', 'c', '&'],
    ['i']),
  -- "/region&/fileg_sustain_cc&", "f"
  (381, ['/', 'r', 'e', 'g', 'i', 'o', 'n', '&', '/', 'f', 'i', 'l', 'e', 'g', '_', 's', 'u', 's', 't', 'a', 'i', 'n', '_', 'c', 'c', '&'],
    ['f']),
  -- "/region&/fileg_sustain_curvecc&", "i"
  (382, ['/', 'r', 'e', 'g', 'i', 'o', 'n', '&', '/', 'f', 'i', 'l', 'e', 'g', '_', 's', 'u', 's', 't', 'a', 'i', 'n', '_', 'c', 'u', 'r', 'v', 'e', 'c', 'c', '&'],
    ['i']),
  -- "/region&/fileg_start_cc&", "f"
  (383, ['/', 'r', 'e', 'g', 'i', 'o', 'n', '&', '/', 'f', 'i', 'l', 'e', 'g', '_', 's', 't', 'a', 'r', 't', '_', 'c', 'c', '&'],
    ['f']),
  -- "/region&/fileg_start_curvecc&", "i"
  (384, ['/', 'r', 'e', 'g', 'i', 'o', 'n', '&', '/', 'f', 'i', 'l', 'e', 'g', '_', 's', 't', 'a', 'r', 't', '_', 'c', 'u', 'r', 'v', 'e', 'c', 'c', '&'],
    ['i']),
  -- "/region&/fileg_dynamic", "T"
  (385, ['/', 'r', 'e', 'g', 'i', 'o', 'n', '&', '/', 'f', 'i', 'l', 'e', 'g', '_', 'd', 'y', 'n', 'a', 'm', 'i', 'c'],
    ['T']),
  -- "/region&/fileg_dynamic", "F"
  (386, ['/', 'r', 'e', 'g', 'i', 'o', 'n', '&', '/', 'f', 'i', 'l', 'e', 'g', '_', 'd', 'y', 'n', 'a', 'm', 'i', 'c'],
    ['F']),
  -- "/region&/fileg_dynamic", "s"
  (387, ['/', 'r', 'e', 'g', 'i', 'o', 'n', '&', '/', 'f', 'i', 'l', 'e', 'g', '_', 'd', 'y', 'n', 'a', 'm', 'i', 'c'],
    ['s']),
  -- "/region&/pitcheg_attack", ""
  (388, ['/', 'r', 'e', 'g', 'i', 'o', 'n', '&', '/', 'p', 'i', 't', 'c', 'h', 'e', 'g', '_', 'a', 't', 't', 'a', 'c', 'k'],
    []),
  -- "/region&/pitcheg_delay", ""
  (389, ['/', 'r', 'e', 'g', 'i', 'o', 'n', '&', '/', 'p', 'i', 't', 'c', 'h', 'e', 'g', '_', 'd', 'e', 'l', 'a', 'y'],
    []),
  -- "/region&/pitcheg_decay", ""
  (390, ['/', 'r', 'e', 'g', 'i', 'o', 'n', '&', '/', 'p', 'i', 't', 'c', 'h', 'e', 'g', '_', 'd', 'e', 'c', 'a', 'y'],
    []),
  -- "/region&/pitcheg_hold", ""
  (391, ['/', 'r', 'e', 'g', 'i', 'o', 'n', '&', '/', 'p', 'i', 't', 'c', 'h', 'e', 'g', '_', 'h', 'o', 'l', 'd'],
    []),
  -- "/region&/pitcheg_release", ""
  (392, ['/', 'r', 'e', 'g', 'i', 'o', 'n', '&', '/', 'p', 'i', 't', 'c', 'h', 'e', 'g', '_', 'r', 'e', 'l', 'e', 'a', 's', 'e'],
    []),
  -- "/region&/pitcheg_start", ""
  (393, ['/', 'r', 'e', 'g', 'i', 'o', 'n', '&', '/', 'p', 'i', 't', 'c', 'h', 'e', 'g', '_', 's', 't', 'a', 'r', 't'],
    []),
  -- "/region&/pitcheg_sustain", ""
  (394, ['/', 'r', 'e', 'g', 'i', 'o', 'n', '&', '/', 'p', 'i', 't', 'c', 'h', 'e', 'g', '_', 's', 'u', 's', 't', 'a', 'i', 'n'],
    []),
  -- "/region&/pitcheg_depth", ""
  (395, ['/', 'r', 'e', 'g', 'i', 'o', 'n', '&', '/', 'p', 'i', 't', 'c', 'h', 'e', 'g', '_', 'd', 'e', 'p', 't', 'h'],
    []),
  -- "/region&/pitcheg_attack_cc&", ""
  (396, ['/', 'r', 'e', 'g', 'i', 'o', 'n', '&', '/', 'p', 'i', 't', 'c', 'h', 'e', 'g', '_', 'a', 't', 't', 'a', 'c', 'k', '_', 'c', 'c', '&'],
    []),
  -- "/region&/pitcheg_attack_curvecc&", ""
  (397, ['/', 'r', 'e', 'g', 'i', 'o', 'n', '&', '/', 'p', 'i', 't', 'c', 'h', 'e', 'g', '_', 'a', 't', 't', 'a', 'c', 'k', '_', 'c', 'u', 'r', 'v', 'e', 'c', 'c', '&'],
    []),
  -- "/region&/pitcheg_decay_cc&", ""
  (398, ['/', 'r', 'e', 'g', 'i', 'o', 'n', '&', '/', 'p', 'i', 't', 'c', 'h', 'e', 'g', '_', 'd', 'e', 'c', 'a', 'y', '_', 'c', 'c', '&'],
    []),
  -- "/region&/pitcheg_decay_curvecc&", ""
  (399, ['/', 'r', 'e', 'g', 'i', 'o', 'n', '&', '/', 'p', 'i', 't', 'c', 'h', 'e', 'g', '_', 'd', 'e', 'c', 'a', 'y', '_', 'c', 'u', 'r', 'v', 'e', 'c', 'c', '&'],
    []),
  -- "/region&/pitcheg_delay_cc&", ""
  (400, ['/', 'r', 'e', 'g', 'i', 'o', 'n', '&', '/', 'p', 'i', 't', 'c', 'h', 'e', 'g', '_', 'd', 'e', 'l', 'a', 'y', '_', 'c', 'c', '&'],
    []),
  -- "/region&/pitcheg_delay_curvecc&", ""
  (401, ['/', 'r', 'e', 'g', 'i', 'o', 'n', '&', '/', 'p', 'i', 't', 'c', 'h', 'e', 'g', '_', 'd', 'e', 'l', 'a', 'y', '_', 'c', 'u', 'r', 'v', 'e', 'c', 'c', '&'],
    []),
  -- "/region&/pitcheg_hold_cc&", ""
  (402, ['/', 'r', 'e', 'g', 'i', 'o', 'n', '&', '/', 'p', 'i', 't', 'c', 'h', 'e', 'g', '_', 'h', 'o', 'l', 'd', '_', 'c', 'c', '&'],
    []),
  -- "/region&/pitcheg_hold_curvecc&", ""
  (403, ['/', 'r', 'e', 'g', 'i', 'o', 'n', '&', '/', 'p', 'i', 't', 'c', 'h', 'e', 'g', '_', 'h', 'o', 'l', 'd', '_', 'c', 'u', 'r', 'v', 'e', 'c', 'c', '&'],
    []),
  -- "/region&/pitcheg_release_cc&", ""
  (404, ['/', 'r', 'e', 'g', 'i', 'o', 'n', '&', '/', 'p', 'i', 't', 'c', 'h', 'e', 'g', '_', 'r', 'e', 'l', 'e', 'a', 's', 'e', '_', 'c', 'c', '&'],
    []),
  -- "/region&/pitcheg_release_curvecc&", ""
  (405, ['/', 'r', 'e', 'g', 'i', 'o', 'n', '&', '/', 'p', 'i', 't', 'c', 'h', 'e', 'g', '_', 'r', 'e', 'l', 'e', 'a', 's', 'e', '_', 'c', 'u', 'r', 'v', 'e', 'c', 'c', '&'],
    []),
  -- "/region&/pitcheg_sustain_cc&", ""
  (406, ['/', 'r', 'e', 'g', 'i', 'o', 'n', '&', '/', 'p', 'i', 't', 'c', 'h', 'e', 'g', '_', 's', 'u', 's', 't', 'a', 'i', 'n', '_', 'c', 'c', '&'],
    []),
  -- "/region&/pitcheg_sustain_curvecc&", ""
  (407, ['/', 'r', 'e', 'g', 'i', 'o', 'n', '&', '/', 'p', 'i', 't', 'c', 'h', 'e', 'g', '_', 's', 'u', 's', 't', 'a', 'i', 'n', '_', 'c', 'u', 'r', 'v', 'e', 'c', 'c', '&'],
    []),
  -- "/region&/pitcheg_start_cc&", ""
  (408, ['/', 'r', 'e', 'g', 'i', 'o', 'n', '&', '/', 'p', 'i', 't', 'c', 'h', 'e', 'g', '_', 's', 't', 'a', 'r', 't', '_', 'c', 'c', '&'],
    []),
  -- "/region&/pitcheg_start_curvecc&", ""
  (409, ['/', 'r', 'e', 'g', 'i', 'o', 'n', '&', '/', 'p', 'i', 't', 'c', 'h', 'e', 'g', '_', 's', 't', 'a', 'r', 't', '_', 'c', 'u', 'r', 'v', 'e', 'c', 'c', '&'],
    []),
  -- "/region&/pitcheg_dynamic", ""
  (410, ['/', 'r', 'e', 'g', 'i', 'o', 'n', '&', '/', 'p', 'i', 't', 'c', 'h', 'e', 'g', '_', 'd', 'y', 'n', 'a', 'm', 'i', 'c'],
    []),
  -- "/region&/pitcheg_attack", "f"
  (411, ['/', 'r', 'e', 'g', 'i', 'o', 'n', '&', '/', 'p', 'i', 't', 'c', 'h', 'e', 'g', '_', 'a', 't', 't', 'a', 'c', 'k'],
    ['f']),
  -- "/region&/pitcheg_delay", "f"
  (412, ['/', 'r', 'e', 'g', 'i', 'o', 'n', '&', '/', 'p', 'i', 't', 'c', 'h', 'e', 'g', '_', 'd', 'e', 'l', 'a', 'y'],
    ['f']),
  -- "/region&/pitcheg_decay", "f"
  (413, ['/', 'r', 'e', 'g', 'i', 'o', 'n', '&', '/', 'p', 'i', 't', 'c', 'h', 'e', 'g', '_', 'd', 'e', 'c', 'a', 'y'],
    ['f']),
  -- "/region&/pitcheg_hold", "f"
  (414, ['/', 'r', 'e', 'g', 'i', 'o', 'n', '&', '/', 'p', 'i', 't', 'c', 'h', 'e', 'g', '_', 'h', 'o', 'l', 'd'],
    ['f']),
  -- "/region&/pitcheg_release", "f"
  (415, ['/', 'r', 'e', 'g', 'i', 'o', 'n', '&', '/', 'p', 'i', 't', 'c', 'h', 'e', 'g', '_', 'r', 'e', 'l', 'e', 'a', 's', 'e'],
    ['f']),
  -- "/region&/pitcheg_start", "f"
  (416, ['/', 'r', 'e', 'g', 'i', 'o', 'n', '&', '/', 'p', 'i', 't', 'c', 'h', 'e', 'g', '_', 's', 't', 'a', 'r', 't'],
    ['f']),
  -- "/region&/pitcheg_sustain", "f"
  (417, ['/', 'r', 'e', 'g', 'i', 'o', 'n', '&', '/', 'p', 'i', 't', 'c', 'h', 'e', 'g', '_', 's', 'u', 's', 't', 'a', 'i', 'n'],
    ['f']),
  -- "/region&/pitcheg_depth", "f"
  (418, ['/', 'r', 'e', 'g', 'i', 'o', 'n', '&', '/', 'p', 'i', 't', 'c', 'h', 'e', 'g', '_', 'd', 'e', 'p', 't', 'h'],
    ['f']),
  -- "/region&/pitcheg_attack_cc&", "f"
  (419, ['/', 'r', 'e', 'g', 'i', 'o', 'n', '&', '/', 'p', 'i', 't', 'c', 'h', 'e', 'g', '_', 'a', 't', 't', 'a', 'c', 'k', '_', 'c', 'c', '&'],
    ['f']),
  -- "/region&/pitcheg_attack_curvecc&", "i"
  (420, ['/', 'r', 'e', 'g', 'i', 'o', 'n', '&', '/', 'p', 'i', 't', 'c', 'h', 'e', 'g', '_', 'a', 't', 't', 'a', 'c', 'k', '_', 'c', 'u', 'r', 'v', 'e', 'c', 'c', '&'],
    ['i']),
  -- "/region&/pitcheg_decay_cc&", "f"
  (421, ['/', 'r', 'e', 'g', 'i', 'o', 'n', '&', '/', 'p', 'i', 't', 'c', 'h', 'e', 'g', '_', 'd', 'e', 'c', 'a', 'y', '_', 'c', 'c', '&'],
    ['f']),
  -- "/region&/pitcheg_decay_curvecc&", "i"
  (422, ['/', 'r', 'e', 'g', 'i', 'o', 'n', '&', '/', 'p', 'i', 't', 'c', 'h', 'e', 'g', '_', 'd', 'e', 'c', 'a', 'y', '_', 'c', 'u', 'r', 'v', 'e', 'c', 'c', '&'],
    ['i']),
  -- "/region&/pitcheg_delay_cc&", "f"
  (423, ['/', 'r', 'e', 'g', 'i', 'o', 'n', '&', '/', 'p', 'i', 't', 'c', 'h', 'e', 'g', '_', 'd', 'e', 'l', 'a', 'y', '_', 'c', 'c', '&'],
    ['f']),
  -- "/region&/pitcheg_delay_curvecc&", "i"
  (424, ['/', 'r', 'e', 'g', 'i', 'o', 'n', '&', '/', 'p', 'i', 't', 'c', 'h', 'e', 'g', '_', 'd', 'e', 'l', 'a', 'y', '_', 'c', 'u', 'r', 'v', 'e', 'c', 'c', '&'],
    ['i']),
  -- "/region&/pitcheg_hold_cc&", "f"
  (425, ['/', 'r', 'e', 'g', 'i', 'o', 'n', '&', '/', 'p', 'i', 't', 'c', 'h', 'e', 'g', '_', 'h', 'o', 'l', 'd', '_', 'c', 'c', '&'],
    ['f']),
  -- "/region&/pitcheg_hold_curvecc&", "i"
  (426, ['/', 'r', 'e', 'g', 'i', 'o', 'n', '&', '/', 'p', 'i', 't', 'c', 'h', 'e', 'g', '_', 'h', 'o', 'l', 'd', '_', 'c', 'u', 'r', 'v', 'e', 'c', 'c', '&'],
    ['i']),
  -- "/region&/pitcheg_release_cc&", "f"
  (427, ['/', 'r', 'e', 'g', 'i', 'o', 'n', '&', '/', 'p', 'i', 't', 'c', 'h', 'e', 'g', '_', 'r', 'e', 'l', 'e', 'a', 's', 'e', '_', 'c', 'c', '&'],
    ['f']),
  -- "/region&/pitcheg_release_curvecc&", "i"
  (428, ['/', 'r', 'e', 'g', 'i', 'o', 'n', '&', '/', 'p', 'i', 't', 'c', 'h', 'e', 'g', '_', 'r', 'e', 'l', 'e', 'a', 's', 'e', '_', 'c', 'u', 'r', 'v', 'e', 'c', 'c', '&'],
    ['i']),
  -- "/region&/pitcheg_sustain_cc&", "f"
  (429, ['/', 'r', 'e', 'g', 'i', 'o', 'n', '&', '/', 'p', 'i', 't', 'c', 'h', 'e', 'g', '_', 's', 'u', 's', 't', 'a', 'i', 'n', '_', 'c', 'c', '&'],
    ['f']),
  -- "/region&/pitcheg_sustain_curvecc&", "i"
  (430, ['/', 'r', 'e', 'g', 'i', 'o', 'n', '&', '/', 'p', 'i', 't', 'c', 'h', 'e', 'g', '_', 's', 'u', 's', 't', 'a', 'i', 'n', '_', 'c', 'u', 'r', 'v', 'e', 'c', 'c', '&'],
    ['i']),
  -- "/region&/pitcheg_start_cc&", "f"
  (431, ['/', 'r', 'e', 'g', 'i', 'o', 'n', '&', '/', 'p', 'i', 't', 'c', 'h', 'e', 'g', '_', 's', 't', 'a', 'r', 't', '_', 'c', 'c', '&'],
    ['f']),
  -- "/region&/pitcheg_start_curvecc&", "i"
  (432, ['/', 'r', 'e', 'g', 'i', 'o', 'n', '&', '/', 'p', 'i', 't', 'c', 'h', 'e', 'g', '_', 's', 't', 'a', 'r', 't', '_', 'c', 'u', 'r', 'v', 'e', 'c', 'c', '&'],
    ['i']),
  -- "/region&/pitcheg_dynamic", "T"
  (433, ['/', 'r', 'e', 'g', 'i', 'o', 'n', '&', '/', 'p', 'i', 't', 'c', 'h', 'e', 'g', '_', 'd', 'y', 'n', 'a', 'm', 'i', 'c'],
    ['T']),
  -- "/region&/pitcheg_dynamic", "F"
  (434, ['/', 'r', 'e', 'g', 'i', 'o', 'n', '&', '/', 'p', 'i', 't', 'c', 'h', 'e', 'g', '_', 'd', 'y', 'n', 'a', 'm', 'i', 'c'],
    ['F']),
  -- "/region&/pitcheg_dynamic", "s"
  (435, ['/', 'r', 'e', 'g', 'i', 'o', 'n', '&', '/', 'p', 'i', 't', 'c', 'h', 'e', 'g', '_', 'd', 'y', 'n', 'a', 'm', 'i', 'c'],
    ['s']),
  -- "/region&/note_polyphony", ""
  (436, ['/', 'r', 'e', 'g', 'i', 'o', 'n', '&', '/', 'n', 'o', 't', 'e', '_', 'p', 'o', 'l', 'y', 'p', 'h', 'o', 'n', 'y'],
    []),
  -- "/region&/note_polyphony", "i"
  (437, ['/', 'r', 'e', 'g', 'i', 'o', 'n', '&', '/', 'n', 'o', 't', 'e', '_', 'p', 'o', 'l', 'y', 'p', 'h', 'o', 'n', 'y'],
    ['i']),
  -- "/region&/rt_dead", ""
  (438, ['/', 'r', 'e', 'g', 'i', 'o', 'n', '&', '/', 'r', 't', '_', 'd', 'e', 'a', 'd'],
    []),
  -- "/region&/rt_dead", "s"
  (439, ['/', 'r', 'e', 'g', 'i', 'o', 'n', '&', '/', 'r', 't', '_', 'd', 'e', 'a', 'd'],
    ['s']),
  -- "/region&/rt_dead", "T"
  (440, ['/', 'r', 'e', 'g', 'i', 'o', 'n', '&', '/', 'r', 't', '_', 'd', 'e', 'a', 'd'],
    ['T']),
  -- "/region&/rt_dead", "F"
  (441, ['/', 'r', 'e', 'g', 'i', 'o', 'n', '&', '/', 'r', 't', '_', 'd', 'e', 'a', 'd'],
    ['F']),
  -- "/region&/sustain_sw", ""
  (442, ['/', 'r', 'e', 'g', 'i', 'o', 'n', '&', '/', 's', 'u', 's', 't', 'a', 'i', 'n', '_', 's', 'w'],
    []),
  -- "/region&/sustain_sw", "s"
  (443, ['/', 'r', 'e', 'g', 'i', 'o', 'n', '&', '/', 's', 'u', 's', 't', 'a', 'i', 'n', '_', 's', 'w'],
    ['s']),
  -- "/region&/sustain_sw", "T"
  (444, ['/', 'r', 'e', 'g', 'i', 'o', 'n', '&', '/', 's', 'u', 's', 't', 'a', 'i', 'n', '_', 's', 'w'],
    ['T']),
  -- "/region&/sustain_sw", "F"
  (445, ['/', 'r', 'e', 'g', 'i', 'o', 'n', '&', '/', 's', 'u', 's', 't', 'a', 'i', 'n', '_', 's', 'w'],
    ['F']),
  -- "/region&/sostenuto_sw", ""
  (446, ['/', 'r', 'e', 'g', 'i', 'o', 'n', '&', '/', 's', 'o', 's', 't', 'e', 'n', 'u', 't', 'o', '_', 's', 'w'],
    []),
  -- "/region&/sostenuto_sw", "s"
  (447, ['/', 'r', 'e', 'g', 'i', 'o', 'n', '&', '/', 's', 'o', 's', 't', 'e', 'n', 'u', 't', 'o', '_', 's', 'w'],
    ['s']),
  -- "/region&/sostenuto_sw", "T"
  (448, ['/', 'r', 'e', 'g', 'i', 'o', 'n', '&', '/', 's', 'o', 's', 't', 'e', 'n', 'u', 't', 'o', '_', 's', 'w'],
    ['T']),
  -- "/region&/sostenuto_sw", "F"
  (449, ['/', 'r', 'e', 'g', 'i', 'o', 'n', '&', '/', 's', 'o', 's', 't', 'e', 'n', 'u', 't', 'o', '_', 's', 'w'],
    ['F']),
  -- "/region&/sustain_cc", ""
  (450, ['/', 'r', 'e', 'g', 'i', 'o', 'n', '&', '/', 's', 'u', 's', 't', 'a', 'i', 'n', '_', 'c', 'c'],
    []),
  -- "/region&/sustain_cc", "i"
  (451, ['/', 'r', 'e', 'g', 'i', 'o', 'n', '&', '/', 's', 'u', 's', 't', 'a', 'i', 'n', '_', 'c', 'c'],
    ['i']),
  -- "/region&/sostenuto_cc", ""
  (452, ['/', 'r', 'e', 'g', 'i', 'o', 'n', '&', '/', 's', 'o', 's', 't', 'e', 'n', 'u', 't', 'o', '_', 'c', 'c'],
    []),
  -- "/region&/sostenuto_cc", "i"
  (453, ['/', 'r', 'e', 'g', 'i', 'o', 'n', '&', '/', 's', 'o', 's', 't', 'e', 'n', 'u', 't', 'o', '_', 'c', 'c'],
    ['i']),
  -- "/region&/sustain_lo", ""
  (454, ['/', 'r', 'e', 'g', 'i', 'o', 'n', '&', '/', 's', 'u', 's', 't', 'a', 'i', 'n', '_', 'l', 'o'],
    []),
  -- "/region&/sustain_lo", "f"
  (455, ['/', 'r', 'e', 'g', 'i', 'o', 'n', '&', '/', 's', 'u', 's', 't', 'a', 'i', 'n', '_', 'l', 'o'],
    ['f']),
  -- "/region&/sostenuto_lo", ""
  (456, ['/', 'r', 'e', 'g', 'i', 'o', 'n', '&', '/', 's', 'o', 's', 't', 'e', 'n', 'u', 't', 'o', '_', 'l', 'o'],
    []),
  -- "/region&/sostenuto_lo", "f"
  (457, ['/', 'r', 'e', 'g', 'i', 'o', 'n', '&', '/', 's', 'o', 's', 't', 'e', 'n', 'u', 't', 'o', '_', 'l', 'o'],
    ['f']),
  -- "/region&/note_selfmask", ""
  (458, ['/', 'r', 'e', 'g', 'i', 'o', 'n', '&', '/', 'n', 'o', 't', 'e', '_', 's', 'e', 'l', 'f', 'm', 'a', 's', 'k'],
    []),
  -- "/region&/note_selfmask", "s"
  (459, ['/', 'r', 'e', 'g', 'i', 'o', 'n', '&', '/', 'n', 'o', 't', 'e', '_', 's', 'e', 'l', 'f', 'm', 'a', 's', 'k'],
    ['s']),
  -- "/region&/oscillator_phase", ""
  (460, ['/', 'r', 'e', 'g', 'i', 'o', 'n', '&', '/', 'o', 's', 'c', 'i', 'l', 'l', 'a', 't', 'o', 'r', '_', 'p', 'h', 'a', 's', 'e'],
    []),
  -- "/region&/oscillator_phase", "f"
  (461, ['/', 'r', 'e', 'g', 'i', 'o', 'n', '&', '/', 'o', 's', 'c', 'i', 'l', 'l', 'a', 't', 'o', 'r', '_', 'p', 'h', 'a', 's', 'e'],
    ['f']),
  -- "/region&/oscillator_quality", ""
  (462, ['/', 'r', 'e', 'g', 'i', 'o', 'n', '&', '/', 'o', 's', 'c', 'i', 'l', 'l', 'a', 't', 'o', 'r', '_', 'q', 'u', 'a', 'l', 'i', 't', 'y'],
    []),
  -- "/region&/oscillator_quality", "i"
  (463, ['/', 'r', 'e', 'g', 'i', 'o', 'n', '&', '/', 'o', 's', 'c', 'i', 'l', 'l', 'a', 't', 'o', 'r', '_', 'q', 'u', 'a', 'l', 'i', 't', 'y'],
    ['i']),
  -- "/region&/oscillator_mode", ""
  (464, ['/', 'r', 'e', 'g', 'i', 'o', 'n', '&', '/', 'o', 's', 'c', 'i', 'l', 'l', 'a', 't', 'o', 'r', '_', 'm', 'o', 'd', 'e'],
    []),
  -- "/region&/oscillator_mode", "i"
  (465, ['/', 'r', 'e', 'g', 'i', 'o', 'n', '&', '/', 'o', 's', 'c', 'i', 'l', 'l', 'a', 't', 'o', 'r', '_', 'm', 'o', 'd', 'e'],
    ['i']),
  -- "/region&/oscillator_multi", ""
  (466, ['/', 'r', 'e', 'g', 'i', 'o', 'n', '&', '/', 'o', 's', 'c', 'i', 'l', 'l', 'a', 't', 'o', 'r', '_', 'm', 'u', 'l', 't', 'i'],
    []),
  -- "/region&/oscillator_multi", "i"
  (467, ['/', 'r', 'e', 'g', 'i', 'o', 'n', '&', '/', 'o', 's', 'c', 'i', 'l', 'l', 'a', 't', 'o', 'r', '_', 'm', 'u', 'l', 't', 'i'],
    ['i']),
  -- "/region&/oscillator_detune", ""
  (468, ['/', 'r', 'e', 'g', 'i', 'o', 'n', '&', '/', 'o', 's', 'c', 'i', 'l', 'l', 'a', 't', 'o', 'r', '_', 'd', 'e', 't', 'u', 'n', 'e'],
    []),
  -- "/region&/oscillator_detune", "f"
  (469, ['/', 'r', 'e', 'g', 'i', 'o', 'n', '&', '/', 'o', 's', 'c', 'i', 'l', 'l', 'a', 't', 'o', 'r', '_', 'd', 'e', 't', 'u', 'n', 'e'],
    ['f']),
  -- "/region&/oscillator_mod_depth", ""
  (470, ['/', 'r', 'e', 'g', 'i', 'o', 'n', '&', '/', 'o', 's', 'c', 'i', 'l', 'l', 'a', 't', 'o', 'r', '_', 'm', 'o', 'd', '_', 'd', 'e', 'p', 't', 'h'],
    []),
  -- "/region&/oscillator_mod_depth", "f"
  (471, ['/', 'r', 'e', 'g', 'i', 'o', 'n', '&', '/', 'o', 's', 'c', 'i', 'l', 'l', 'a', 't', 'o', 'r', '_', 'm', 'o', 'd', '_', 'd', 'e', 'p', 't', 'h'],
    ['f']),
  -- "/region&/effect&", ""
  (474, ['/', 'r', 'e', 'g', 'i', 'o', 'n', '&', '/', 'e', 'f', 'f', 'e', 'c', 't', '&'],
    []),
  -- "/region&/effect&", "f"
  (480, ['/', 'r', 'e', 'g', 'i', 'o', 'n', '&', '/', 'e', 'f', 'f', 'e', 'c', 't', '&'],
    ['f']),
  -- "/region&/add_filter", ""
  (486, ['/', 'r', 'e', 'g', 'i', 'o', 'n', '&', '/', 'a', 'd', 'd', '_', 'f', 'i', 'l', 't', 'e', 'r'],
    []),
  -- "/region&/filter&/cutoff", ""
  (495, ['/', 'r', 'e', 'g', 'i', 'o', 'n', '&', '/', 'f', 'i', 'l', 't', 'e', 'r', '&', '/', 'c', 'u', 't', 'o', 'f', 'f'],
    []),
  -- "/region&/filter&/cutoff", "f"
  (496, ['/', 'r', 'e', 'g', 'i', 'o', 'n', '&', '/', 'f', 'i', 'l', 't', 'e', 'r', '&', '/', 'c', 'u', 't', 'o', 'f', 'f'],
    ['f']),
  -- "/region&/filter&/cutoff_cc&", ""
  (497, ['/', 'r', 'e', 'g', 'i', 'o', 'n', '&', '/', 'f', 'i', 'l', 't', 'e', 'r', '&', '/', 'c', 'u', 't', 'o', 'f', 'f', '_', 'c', 'c', '&'],
    []),
  -- "/region&/filter&/cutoff_curvecc&", ""
  (498, ['/', 'r', 'e', 'g', 'i', 'o', 'n', '&', '/', 'f', 'i', 'l', 't', 'e', 'r', '&', '/', 'c', 'u', 't', 'o', 'f', 'f', '_', 'c', 'u', 'r', 'v', 'e', 'c', 'c', '&'],
    []),
  -- "/region&/filter&/cutoff_stepcc&", ""
  (499, ['/', 'r', 'e', 'g', 'i', 'o', 'n', '&', '/', 'f', 'i', 'l', 't', 'e', 'r', '&', '/', 'c', 'u', 't', 'o', 'f', 'f', '_', 's', 't', 'e', 'p', 'c', 'c', '&'],
    []),
  -- "/region&/filter&/cutoff_smoothcc&", ""
  (500, ['/', 'r', 'e', 'g', 'i', 'o', 'n', '&', '/', 'f', 'i', 'l', 't', 'e', 'r', '&', '/', 'c', 'u', 't', 'o', 'f', 'f', '_', 's', 'm', 'o', 'o', 't', 'h', 'c', 'c', '&'],
    []),
  -- "/region&/filter&/resonance", ""
  (501, ['/', 'r', 'e', 'g', 'i', 'o', 'n', '&', '/', 'f', 'i', 'l', 't', 'e', 'r', '&', '/', 'r', 'e', 's', 'o', 'n', 'a', 'n', 'c', 'e'],
    []),
  -- "/region&/filter&/resonance", "f"
  (502, ['/', 'r', 'e', 'g', 'i', 'o', 'n', '&', '/', 'f', 'i', 'l', 't', 'e', 'r', '&', '/', 'r', 'e', 's', 'o', 'n', 'a', 'n', 'c', 'e'],
    ['f']),
  -- "/region&/filter&/gain", ""
  (503, ['/', 'r', 'e', 'g', 'i', 'o', 'n', '&', '/', 'f', 'i', 'l', 't', 'e', 'r', '&', '/', 'g', 'a', 'i', 'n'],
    []),
  -- "/region&/filter&/gain", "f"
  (504, ['/', 'r', 'e', 'g', 'i', 'o', 'n', '&', '/', 'f', 'i', 'l', 't', 'e', 'r', '&', '/', 'g', 'a', 'i', 'n'],
    ['f']),
  -- "/region&/filter&/keycenter", ""
  (505, ['/', 'r', 'e', 'g', 'i', 'o', 'n', '&', '/', 'f', 'i', 'l', 't', 'e', 'r', '&', '/', 'k', 'e', 'y', 'c', 'e', 'n', 't', 'e', 'r'],
    []),
  -- "/region&/filter&/keycenter", "i"
  (506, ['/', 'r', 'e', 'g', 'i', 'o', 'n', '&', '/', 'f', 'i', 'l', 't', 'e', 'r', '&', '/', 'k', 'e', 'y', 'c', 'e', 'n', 't', 'e', 'r'],
    ['i']),
  -- "/region&/filter&/keytrack", ""
  (507, ['/', 'r', 'e', 'g', 'i', 'o', 'n', '&', '/', 'f', 'i', 'l', 't', 'e', 'r', '&', '/', 'k', 'e', 'y', 't', 'r', 'a', 'c', 'k'],
    []),
  -- "/region&/filter&/keytrack", "f"
  (508, ['/', 'r', 'e', 'g', 'i', 'o', 'n', '&', '/', 'f', 'i', 'l', 't', 'e', 'r', '&', '/', 'k', 'e', 'y', 't', 'r', 'a', 'c', 'k'],
    ['f']),
  -- "/region&/filter&/veltrack", ""
  (509, ['/', 'r', 'e', 'g', 'i', 'o', 'n', '&', '/', 'f', 'i', 'l', 't', 'e', 'r', '&', '/', 'v', 'e', 'l', 't', 'r', 'a', 'c', 'k'],
    []),
  -- "/region&/filter&/veltrack", "f"
  (510, ['/', 'r', 'e', 'g', 'i', 'o', 'n', '&', '/', 'f', 'i', 'l', 't', 'e', 'r', '&', '/', 'v', 'e', 'l', 't', 'r', 'a', 'c', 'k'],
    ['f']),
  -- "/region&/filter&/veltrack_cc&", ""
  (511, ['/', 'r', 'e', 'g', 'i', 'o', 'n', '&', '/', 'f', 'i', 'l', 't', 'e', 'r', '&', '/', 'v', 'e', 'l', 't', 'r', 'a', 'c', 'k', '_', 'c', 'c', '&'],
    []),
  -- "/region&/filter&/veltrack_cc&", "f"
  (512, ['/', 'r', 'e', 'g', 'i', 'o', 'n', '&', '/', 'f', 'i', 'l', 't', 'e', 'r', '&', '/', 'v', 'e', 'l', 't', 'r', 'a', 'c', 'k', '_', 'c', 'c', '&'],
    ['f']),
  -- "/region&/filter&/veltrack_curvecc&", ""
  (513, ['/', 'r', 'e', 'g', 'i', 'o', 'n', '&', '/', 'f', 'i', 'l', 't', 'e', 'r', '&', '/', 'v', 'e', 'l', 't', 'r', 'a', 'c', 'k', '_', 'c', 'u', 'r', 'v', 'e', 'c', 'c', '&'],
    []),
  -- "/region&/filter&/veltrack_curvecc&", "i"
  (514, ['/', 'r', 'e', 'g', 'i', 'o', 'n', '&', '/', 'f', 'i', 'l', 't', 'e', 'r', '&', '/', 'v', 'e', 'l', 't', 'r', 'a', 'c', 'k', '_', 'c', 'u', 'r', 'v', 'e', 'c', 'c', '&'],
    ['i']),
  -- "/region&/filter&/type", ""
  (515, ['/', 'r', 'e', 'g', 'i', 'o', 'n', '&', '/', 'f', 'i', 'l', 't', 'e', 'r', '&', '/', 't', 'y', 'p', 'e'],
    []),
  -- "/region&/filter&/type", "s"
  (516, ['/', 'r', 'e', 'g', 'i', 'o', 'n', '&', '/', 'f', 'i', 'l', 't', 'e', 'r', '&', '/', 't', 'y', 'p', 'e'],
    ['s']),
  -- "/region&/add_eq", ""
  (518, ['/', 'r', 'e', 'g', 'i', 'o', 'n', '&', '/', 'a', 'd', 'd', '_', 'e', 'q'],
    []),
  -- "/region&/eq&/gain", ""
  (527, ['/', 'r', 'e', 'g', 'i', 'o', 'n', '&', '/', 'e', 'q', '&', '/', 'g', 'a', 'i', 'n'],
    []),
  -- "/region&/eq&/gain", "f"
  (528, ['/', 'r', 'e', 'g', 'i', 'o', 'n', '&', '/', 'e', 'q', '&', '/', 'g', 'a', 'i', 'n'],
    ['f']),
  -- "/region&/eq&/bandwidth", ""
  (529, ['/', 'r', 'e', 'g', 'i', 'o', 'n', '&', '/', 'e', 'q', '&', '/', 'b', 'a', 'n', 'd', 'w', 'i', 'd', 't', 'h'],
    []),
  -- "/region&/eq&/bandwidth", "f"
  (530, ['/', 'r', 'e', 'g', 'i', 'o', 'n', '&', '/', 'e', 'q', '&', '/', 'b', 'a', 'n', 'd', 'w', 'i', 'd', 't', 'h'],
    ['f']),
  -- "/region&/eq&/frequency", ""
  (531, ['/', 'r', 'e', 'g', 'i', 'o', 'n', '&', '/', 'e', 'q', '&', '/', 'f', 'r', 'e', 'q', 'u', 'e', 'n', 'c', 'y'],
    []),
  -- "/region&/eq&/frequency", "f"
  (532, ['/', 'r', 'e', 'g', 'i', 'o', 'n', '&', '/', 'e', 'q', '&', '/', 'f', 'r', 'e', 'q', 'u', 'e', 'n', 'c', 'y'],
    ['f']),
  -- "/region&/eq&/vel&freq", ""
  (533, ['/', 'r', 'e', 'g', 'i', 'o', 'n', '&', '/', 'e', 'q', '&', '/', 'v', 'e', 'l', '&', 'f', 'r', 'e', 'q'],
    []),
  -- "/region&/eq&/vel&freq", "f"
  (534, ['/', 'r', 'e', 'g', 'i', 'o', 'n', '&', '/', 'e', 'q', '&', '/', 'v', 'e', 'l', '&', 'f', 'r', 'e', 'q'],
    ['f']),
  -- "/region&/eq&/vel&gain", ""
  (535, ['/', 'r', 'e', 'g', 'i', 'o', 'n', '&', '/', 'e', 'q', '&', '/', 'v', 'e', 'l', '&', 'g', 'a', 'i', 'n'],
    []),
  -- "/region&/eq&/vel&gain", "f"
  (536, ['/', 'r', 'e', 'g', 'i', 'o', 'n', '&', '/', 'e', 'q', '&', '/', 'v', 'e', 'l', '&', 'g', 'a', 'i', 'n'],
    ['f']),
  -- "/region&/eq&/type", ""
  (537, ['/', 'r', 'e', 'g', 'i', 'o', 'n', '&', '/', 'e', 'q', '&', '/', 't', 'y', 'p', 'e'],
    []),
  -- "/region&/eq&/type", "s"
  (538, ['/', 'r', 'e', 'g', 'i', 'o', 'n', '&', '/', 'e', 'q', '&', '/', 't', 'y', 'p', 'e'],
    ['s']),
  -- "/region&/lfo&/wave", ""
  (540, ['/', 'r', 'e', 'g', 'i', 'o', 'n', '&', '/', 'l', 'f', 'o', '&', '/', 'w', 'a', 'v', 'e'],
    []),
  -- "/region&/lfo&/wave", "i"
  (541, ['/', 'r', 'e', 'g', 'i', 'o', 'n', '&', '/', 'l', 'f', 'o', '&', '/', 'w', 'a', 'v', 'e'],
    ['i']),
  -- "/region&/lfo&/wave&", ""
  (542, ['/', 'r', 'e', 'g', 'i', 'o', 'n', '&', '/', 'l', 'f', 'o', '&', '/', 'w', 'a', 'v', 'e', '&'],
    []),
  -- "/region&/lfo&/wave&", "i"
  (543, ['/', 'r', 'e', 'g', 'i', 'o', 'n', '&', '/', 'l', 'f', 'o', '&', '/', 'w', 'a', 'v', 'e', '&'],
    ['i']),
  -- "/region&/add_eg", ""
  (545, ['/', 'r', 'e', 'g', 'i', 'o', 'n', '&', '/', 'a', 'd', 'd', '_', 'e', 'g'],
    []),
  -- "/region&/eg&/add_point", ""
  (555, ['/', 'r', 'e', 'g', 'i', 'o', 'n', '&', '/', 'e', 'g', '&', '/', 'a', 'd', 'd', '_', 'p', 'o', 'i', 'n', 't'],
    []),
  -- "/region&/eg&/point&/time", ""
  (564, ['/', 'r', 'e', 'g', 'i', 'o', 'n', '&', '/', 'e', 'g', '&', '/', 'p', 'o', 'i', 'n', 't', '&', '/', 't', 'i', 'm', 'e'],
    []),
  -- "/region&/eg&/point&/time", "f"
  (565, ['/', 'r', 'e', 'g', 'i', 'o', 'n', '&', '/', 'e', 'g', '&', '/', 'p', 'o', 'i', 'n', 't', '&', '/', 't', 'i', 'm', 'e'],
    ['f']),
  -- "/region&/eg&/point&/time_cc&", ""
  (566, ['/', 'r', 'e', 'g', 'i', 'o', 'n', '&', '/', 'e', 'g', '&', '/', 'p', 'o', 'i', 'n', 't', '&', '/', 't', 'i', 'm', 'e', '_', 'c', 'c', '&'],
    []),
  -- "/region&/eg&/point&/time_cc&", "f"
  (567, ['/', 'r', 'e', 'g', 'i', 'o', 'n', '&', '/', 'e', 'g', '&', '/', 'p', 'o', 'i', 'n', 't', '&', '/', 't', 'i', 'm', 'e', '_', 'c', 'c', '&'],
    ['f']),
  -- "/region&/eg&/point&/level", ""
  (568, ['/', 'r', 'e', 'g', 'i', 'o', 'n', '&', '/', 'e', 'g', '&', '/', 'p', 'o', 'i', 'n', 't', '&', '/', 'l', 'e', 'v', 'e', 'l'],
    []),
  -- "/region&/eg&/point&/level", "f"
  (569, ['/', 'r', 'e', 'g', 'i', 'o', 'n', '&', '/', 'e', 'g', '&', '/', 'p', 'o', 'i', 'n', 't', '&', '/', 'l', 'e', 'v', 'e', 'l'],
    ['f']),
  -- "/region&/eg&/point&/level_cc&", ""
  (570, ['/', 'r', 'e', 'g', 'i', 'o', 'n', '&', '/', 'e', 'g', '&', '/', 'p', 'o', 'i', 'n', 't', '&', '/', 'l', 'e', 'v', 'e', 'l', '_', 'c', 'c', '&'],
    []),
  -- "/region&/eg&/point&/level_cc&", "f"
  (571, ['/', 'r', 'e', 'g', 'i', 'o', 'n', '&', '/', 'e', 'g', '&', '/', 'p', 'o', 'i', 'n', 't', '&', '/', 'l', 'e', 'v', 'e', 'l', '_', 'c', 'c', '&'],
    ['f']),
  -- "/voice&/trigger_value", ""
  (573, ['/', 'v', 'o', 'i', 'c', 'e', '&', '/', 't', 'r', 'i', 'g', 'g', 'e', 'r', '_', 'v', 'a', 'l', 'u', 'e'],
    []),
  -- "/voice&/trigger_number", ""
  (574, ['/', 'v', 'o', 'i', 'c', 'e', '&', '/', 't', 'r', 'i', 'g', 'g', 'e', 'r', '_', 'n', 'u', 'm', 'b', 'e', 'r'],
    []),
  -- "/voice&/trigger_type", ""
  (575, ['/', 'v', 'o', 'i', 'c', 'e', '&', '/', 't', 'r', 'i', 'g', 'g', 'e', 'r', '_', 't', 'y', 'p', 'e'],
    []),
  -- "/voice&/remaining_delay", ""
  (576, ['/', 'v', 'o', 'i', 'c', 'e', '&', '/', 'r', 'e', 'm', 'a', 'i', 'n', 'i', 'n', 'g', '_', 'd', 'e', 'l', 'a', 'y'],
    []),
  -- "/voice&/source_position", ""
  (577, ['/', 'v', 'o', 'i', 'c', 'e', '&', '/', 's', 'o', 'u', 'r', 'c', 'e', '_', 'p', 'o', 's', 'i', 't', 'i', 'o', 'n'],
    [])]

end Verif.Messages
