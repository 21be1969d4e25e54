{
 "claims": [
  {
   "property": "C01",
   "status": "partial",
   "theorems": [
    "Verif.System.c01_auth_gate_partial",
    "Verif.System.c01_auth_gate_violated"
   ],
   "note": "False in general: the security list is cached at the first version message, so requiring authentication later does not reach new clients (witness). Proved for every run in which the authentication settings are fixed before the first client."
  },
  {
   "property": "C02",
   "status": "proved",
   "theorems": [
    "Verif.System.c02_username"
   ],
   "note": "Every reachable state of every run that ends without undefined behaviour; the decryption functions and the application's verdict are arbitrary."
  },
  {
   "property": "C03",
   "status": "partial",
   "theorems": [
    "Verif.System.c03_offer_partial",
    "Verif.System.c03_offer_violated"
   ],
   "note": "False when settings change after the first version message (witness: cached list). Proved: with settings fixed before the first client, exactly the list the settings call for is offered and only offered types are entered."
  },
  {
   "property": "C04",
   "status": "proved",
   "theorems": [
    "Verif.System.c04_no_early_callback"
   ],
   "note": "Every run of any number of clients that ends without undefined behaviour."
  },
  {
   "property": "C05",
   "status": "partial",
   "theorems": [
    "Verif.System.c05_plaintext_partial",
    "Verif.System.c05_plaintext_violated"
   ],
   "note": "False: bytes buffered behind the upgrade request are interpreted inside the encrypted session (witness with injected credentials and a key event). Proved: once the connection is encrypted and the buffer is empty, nothing that arrived in plain text is interpreted any more."
  },
  {
   "property": "C06",
   "status": "proved",
   "theorems": [
    "Verif.System.c06_exclusive"
   ],
   "note": "Every reachable server, every event. disconnect_all_other_clients is applied at the end of the event instead of in the middle."
  },
  {
   "property": "C07",
   "status": "partial",
   "theorems": [
    "Verif.Server.c07_polite",
    "Verif.Server.c07_segmentation_partial",
    "Verif.Server.c07_total",
    "Verif.Server.c07_segmentation_violated",
    "Verif.Server.c07_short_response_violated"
   ],
   "note": "False for a fence cut off after its eighth byte and for fence responses shorter than 8 bytes, which read what follows them (witnesses). Proved for every well-formed sequence without fences cut there, without fence requests and without the stalls of C09: callbacks and settings depend only on the bytes, for every segmentation and every interleaving with other events; and for the messages that do not involve framebuffer updates every segmentation is processed without undefined behaviour."
  },
  {
   "property": "C08",
   "status": "partial",
   "theorems": [
    "Verif.System.c08_buffer_partial",
    "Verif.System.c08_buffer_violated"
   ],
   "note": "False for a fence cut off after 8 bytes (sizeof of a pointer, witness). Proved for every run without undefined behaviour: the unread part stays inside the buffer and in its capacity."
  },
  {
   "property": "C09",
   "status": "partial",
   "theorems": [
    "Verif.Echo.c09_shut_out_violated",
    "Verif.Server.c09_progress_partial",
    "Verif.Server.c09_progress_violated",
    "Verif.Server.c09_long_violated",
    "Verif.Server.c09_held_back_violated"
   ],
   "note": "False for incremental requests during continuous updates and fence requests while updates are pending (proved for every such state), for SetEncodings with 1024 or more entries, and for messages held back by a fence, which stay in the buffer after its answer until more data arrives (witness), and for ever if the fence arrived while a frame was being written and nothing more is requested (witness, for all later events). Proved for every other message and state."
  },
  {
   "property": "C10",
   "status": "partial",
   "theorems": [
    "Verif.Server.c10_input_partial"
   ],
   "note": "All field values, any sequence of messages in any segmentation. Missing: QEMU codes outside the table (see C11)."
  },
  {
   "property": "C11",
   "status": "partial",
   "theorems": [
    "Verif.Server.c11_qemu_codes_partial",
    "Verif.Server.c11_qemu_codes_violated"
   ],
   "note": "False for every code of at least 254 (unchecked table index, proved for all of them). Proved for all codes inside the table."
  },
  {
   "property": "C12",
   "status": "partial",
   "theorems": [
    "Verif.Server.c12_encodings_partial",
    "Verif.Server.c12_encodings_violated"
   ],
   "note": "False when a quality level follows 32 supported encodings (witness). Proved for every list up to that point."
  },
  {
   "property": "C13",
   "status": "proved",
   "theorems": [
    "Verif.Server.c13_event",
    "Verif.Server.c13_message"
   ],
   "note": "Frames started by any message and by any event other than reading, when nested reads find nothing. choose_frame_encoding compared with an independent specification for every list and framebuffer."
  },
  {
   "property": "C14",
   "status": "partial",
   "theorems": [
    "Verif.Server.c14_cut_text_partial",
    "Verif.Server.c14_cut_text_violated"
   ],
   "note": "Over-long text is a use after free (proved for every length over the limit). Proved for every text within the limit and every segmentation."
  },
  {
   "property": "C15",
   "status": "proved",
   "theorems": [
    "Verif.Server.c15_text",
    "Verif.Server.c15_text_begin",
    "Verif.Server.c15_text_long"
   ],
   "note": "For every text without a zero byte, whether its message arrives in one piece or in several; zlib's inflate is a parameter."
  },
  {
   "property": "C16",
   "status": "proved",
   "theorems": [
    "Verif.System.c16_consent",
    "Verif.System.c16_offer",
    "Verif.System.c16_reply",
    "Verif.System.c16_latest"
   ],
   "note": "Over all runs of a server: everything sent about the clipboard is allowed by the client's last words (c16_consent), and what is sent for an offered text is given exactly (c16_offer, c16_reply)."
  },
  {
   "property": "C17",
   "status": "partial",
   "theorems": [
    "Verif.Server.c17_provide_violated",
    "Verif.Server.c17_provide_partial"
   ],
   "note": "False: the announced length leaves out the zero byte that the decoder requires (c17_provide_violated, for every text). Proved for messages whose length counts it."
  },
  {
   "property": "C18",
   "status": "partial",
   "theorems": [
    "Verif.Server.c18_bounds_partial",
    "Verif.Server.c18_bounds_violated"
   ],
   "note": "False for length fields -1, -2 and -3 (witness c18_bounds_violated). Proved for every other length field."
  },
  {
   "property": "C19",
   "status": "proved",
   "theorems": [
    "Verif.Layouts.c19_read",
    "Verif.Server.c19_layout"
   ],
   "note": "All SetDesktopSize messages; the exact reply bytes. Number of screens at most 255 by the message format. c19_read: what the application reads of the layout with the library's functions."
  },
  {
   "property": "C20",
   "status": "partial",
   "theorems": [
    "Verif.Echo.c20_echo",
    "Verif.Echo.c20_patient_partial",
    "Verif.Echo.c20_stuck_violated",
    "Verif.Server.c20_fences_partial",
    "Verif.Server.c20_deferred_partial",
    "Verif.Server.c20_fences_violated"
   ],
   "note": "False for two fences during one frame, and for one that arrives while a frame is being written and is not followed by a request for another (witnesses). Proved for every client of every run: the answers are a subsequence of those asked for, and a client that waits for each answer before the next request has got all of them but perhaps the last, which the server holds. Also proved for fences that can be answered at once and for one fence that waits for the frame under way."
  },
  {
   "property": "C21",
   "status": "partial",
   "theorems": [
    "Verif.Server.c21_event_partial",
    "Verif.Server.c21_message_partial",
    "Verif.Server.c21_keeps_partial",
    "Verif.Server.c21_loop_partial",
    "Verif.Server.c21_tight_violated",
    "Verif.Server.c21_fences_violated"
   ],
   "note": "False: witnesses that fail an assertion (c21_fences_violated, and c21_tight_violated for the encoder). Proved: while no fence waits, no event and no message aborts except through the tight encoder assertion; and any message but a fence that has to wait keeps it so."
  },
  {
   "property": "C22",
   "status": "partial",
   "theorems": [
    "Verif.Server.c22_unsolicited_partial",
    "Verif.Server.c22_unsolicited_violated"
   ],
   "note": "False when the answer to a pending fence reads further messages (witness c22_unsolicited_violated). Proved for all runs in which nested reads find nothing."
  },
  {
   "property": "C23",
   "status": "partial",
   "theorems": [
    "Verif.Server.c23_one_frame_partial",
    "Verif.Server.c23_one_frame_violated"
   ],
   "note": "False when the answer to a pending fence reads further messages (witness c23_one_frame_violated). Proved for all runs in which nested reads find nothing; frames that the encoder refuses count as well."
  },
  {
   "property": "C24",
   "status": "partial",
   "theorems": [
    "Verif.Server.c24_damage_partial",
    "Verif.Server.c24_damage_violated"
   ],
   "note": "False when the encoder refuses a frame (witness c24_damage_violated). Proved for all runs in which it does not, whatever nested reads find."
  },
  {
   "property": "C25",
   "status": "proved",
   "theorems": [
    "Verif.System.c25_damage_clients"
   ],
   "note": "Every run of any number of clients that ends without undefined behaviour, including failing encoder allocation and every way of leaving."
  },
  {
   "property": "C26",
   "status": "proved",
   "theorems": [
    "Verif.Tcp.c26_open_conservation",
    "Verif.Tcp.c26_wire_prefix",
    "Verif.Tcp.c26_accepts_everything",
    "Verif.Tcp.c26_plain_data"
   ],
   "note": "All histories, kernel answers and re-entrant callbacks; sharing of one buffer between several streams is not modelled. sendmsg is assumed not to report more than it was given."
  },
  {
   "property": "C27",
   "status": "partial",
   "theorems": [
    "Verif.Tcp.c27_open_exactly_once",
    "Verif.Tcp.c27_closed_exactly_once",
    "Verif.Tcp.c27_never_asserts",
    "Verif.Tcp.c27_no_ub_partial",
    "Verif.Tcp.c27_close_exec_violated",
    "Verif.Tcp.c27_closing_callback_violated"
   ],
   "note": "Exactly-once completion proved for every execution that reaches no undefined behaviour; two reachable cases of undefined behaviour in the code are exhibited and excluded by c27_no_ub_partial."
  },
  {
   "property": "C28",
   "status": "partial",
   "theorems": [
    "Verif.Tcp.c28_lost_wakeup_violated",
    "Verif.Tcp.c28_again_partial",
    "Verif.Tcp.c28_partial_write_partial",
    "Verif.Tcp.c28_callback_violated",
    "Verif.Tcp.c28_waits_partial",
    "Verif.Tcp.c28_progress_partial"
   ],
   "note": "False in the code: a write ending at a request boundary loses the wake-up, and so does a message sent from a completion callback when the write took all that stood before it (witnesses). Proved: after any history without sends from callbacks, other errors than EAGAIN/EPIPE and writes ending exactly between messages, the stream waits for writability whenever its queue is not empty; and one that waits writes its whole queue, in order, once the kernel takes it."
  },
  {
   "property": "C29",
   "status": "partial",
   "theorems": [
    "Verif.Ws.c29_parse_safe",
    "Verif.Ws.c29_parse_iff_complete",
    "Verif.Ws.c29_round_trip",
    "Verif.Ws.c29_masked_violated",
    "Verif.Ws.c29_sent_frames_decode",
    "Verif.Ws.c29_exec_frame"
   ],
   "note": "Parsing proved safe and exact for every buffer; headers the server writes (unmasked, any length) round-trip. False for masked headers, where the key is written over the header (witness); no caller in the tree writes one."
  },
  {
   "property": "C30",
   "status": "partial",
   "theorems": [
    "Verif.Ws.c30_delivery_partial",
    "Verif.Ws.c30_mask_phase_violated",
    "Verif.Ws.c30_split_header_violated",
    "Verif.Ws.c30_interleaved_control_violated",
    "Verif.Ws.c30_stall_violated",
    "Verif.Ws.c30_no_overrun",
    "Verif.Ws.c30_overrun_violated",
    "Verif.Ws.c30_ignored_frames"
   ],
   "note": "False in general: mask phase restarts per fragment, split headers and interleaved control frames break it (three witnesses). Proved: what is delivered equals an RFC 6455 byte-wise decoder whenever the segmentation avoids these cases."
  },
  {
   "property": "C31",
   "status": "partial",
   "theorems": [
    "Verif.Ws.c31_ping_partial",
    "Verif.Ws.c31_masked_ping_violated",
    "Verif.Ws.c31_split_ping_violated"
   ],
   "note": "False for masked pings (every ping of a conforming client) and pings split across reads (witnesses). Proved for unmasked pings arriving whole."
  },
  {
   "property": "C32",
   "status": "partial",
   "theorems": [
    "Verif.Http.c32_names_case_insensitive",
    "Verif.Http.c32_terminates",
    "Verif.Http.c32_safe_partial",
    "Verif.Http.c32_sound",
    "Verif.Http.c32_request_line",
    "Verif.Http.c32_round_trip",
    "Verif.Http.c32_overflow_violated",
    "Verif.Http.c32_incomplete_violated"
   ],
   "note": "Termination, soundness and exact parsing of well-formed requests proved, and that only GET requests in HTTP/1.1 are taken. False: more than 32 fields overflow the array, and truncated requests are accepted (witnesses). Memory safety of the lexer rests on NUL termination, which the representation of positions as suffixes builds in."
  },
  {
   "property": "C33",
   "status": "partial",
   "theorems": [
    "Verif.Http.c33_loop_terminates_iff",
    "Verif.Http.c33_diverges_violated",
    "Verif.Http.c33_terminates_partial"
   ],
   "note": "False: any white space in a protocol or version value loops forever (proved for every iteration budget). Proved to terminate otherwise."
  },
  {
   "property": "C34",
   "status": "proved",
   "theorems": [
    "Verif.RsaStream.c34_authentic"
   ],
   "note": "For every network input, segmentation and space; AES-EAX is a parameter with the properties of a stream cipher and a 16 byte code. That codes cannot be forged is an assumption of cryptography and not part of the model."
  },
  {
   "property": "C35",
   "status": "partial",
   "theorems": [
    "Verif.RsaStream.c35_receive_partial",
    "Verif.RsaStream.c35_stuck_violated",
    "Verif.RsaStream.c35_long_violated",
    "Verif.RsaStream.c35_empty_violated",
    "Verif.RsaStream.c35_send",
    "Verif.RsaStream.c35_memory_violated"
   ],
   "note": "All that is sent is read by a peer that follows the protocol, while there is memory. Received are messages of 1 to 8174 bytes for which there is space; longer ones close the stream, those for which there is no space are never read, and empty ones hold up what follows."
  },
  {
   "property": "C36",
   "status": "proved",
   "theorems": [
    "Verif.RsaStream.c36_nonces",
    "Verif.RsaStream.c35_send",
    "Verif.RsaStream.c34_authentic"
   ],
   "note": "Nonces are distinct within 2^128 messages of a direction; both ends number the messages alike, which is part of the other two theorems. That the keys of the two directions differ depends on the random numbers of the handshake."
  },
  {
   "property": "C37",
   "status": "proved",
   "theorems": [
    "Verif.Base64.c37_encode_correct",
    "Verif.Base64.c37_decode_encode",
    "Verif.Base64.c37_decode_rejects",
    "Verif.Base64.c37_decode_correct",
    "Verif.Base64.c37_decLut_spec",
    "Verif.Base64.c37_decLut_urlsafe"
   ],
   "note": "All byte strings. Table index safety included; string length bounded by int in base64_is_valid is not modelled."
  },
  {
   "property": "C38",
   "status": "proved",
   "theorems": [
    "Verif.Vec.c38_vec"
   ],
   "note": "All sequences of operations with any allocation outcome; total size below 2^63 (size_t overflow of the doubling is excluded by address space)."
  },
  {
   "property": "C39",
   "status": "proved",
   "theorems": [
    "Verif.Buffers.c39_buffers",
    "Verif.Buffers.c39_counted"
   ],
   "note": "c39_buffers: every sequence of calls in which only owned references are given back or passed on is free of use after free; a buffer lives exactly as long as it is owned, used or queued; freed once; callback right after the release ending the last hold and never otherwise; the pool lives exactly as long as it is owned or one of its buffers is out (or was given back without its reference). c39_counted: rcbuf, encoder and display counters."
  },
  {
   "property": "C40",
   "status": "partial",
   "theorems": [
    "Verif.Buffers.c40_pool_partial",
    "Verif.Buffers.c40_twice_violated",
    "Verif.Buffers.c40_unfed_violated",
    "Verif.Buffers.c40_giveback_violated"
   ],
   "note": "Holds for applications that feed an acquired buffer once per acquisition. Violated when the same buffer is fed twice (display.c 38-45 releases before it holds): it is handed out while it is shown, and the pool is freed early; pool leaks when an acquired buffer is never fed or is given back with nvnc_fb_pool_release."
  },
  {
   "property": "C41",
   "status": "partial",
   "theorems": [
    "Verif.Enc.c41_tile_partial",
    "Verif.Enc.c41_tile_violated"
   ],
   "note": "Tiles of all sizes and contents decode with an RFC decoder to their pixels; not for formats whose compact pixels are not the RFC's (witness c41_tile_violated) nor tiles that overflow the palette (C43)."
  },
  {
   "property": "C42",
   "status": "partial",
   "theorems": [
    "Verif.Enc.c42_partition",
    "Verif.Enc.c42_zrle_partial",
    "Verif.Enc.c42_large_violated"
   ],
   "note": "The tiles are the RFC's and partition the rectangle; for all answers of zlib a finished frame is the rectangles of the damage with their tiles. Not for formats as in C41, palettes as in C43, failing allocations, framebuffers of 2 GB and more (c42_large_violated: damage far behind is never encoded), 4 GB of output."
  },
  {
   "property": "C43",
   "status": "partial",
   "theorems": [
    "Verif.Enc.c43_tile_partial",
    "Verif.Enc.c43_tile_violated"
   ],
   "note": "Exact condition: the palette on the stack overflows iff compact pixels have four bytes and the tile has 13 to 16 colours (witness c43_tile_violated); otherwise nothing is written out of bounds."
  },
  {
   "property": "C44",
   "status": "partial",
   "theorems": [
    "Verif.Enc.c44_compact",
    "Verif.Enc.c44_room_violated"
   ],
   "note": "Round trip for all lengths below 2^22 when three bytes are free. c44_room_violated and c45_room_violated: the encoder only makes sure of one byte."
  },
  {
   "property": "C45",
   "status": "partial",
   "theorems": [
    "Verif.Enc.c45_tight_partial",
    "Verif.Enc.c45_workers",
    "Verif.Enc.c45_wide_violated",
    "Verif.Enc.c45_room_violated"
   ],
   "note": "For all sizes up to 32704, damage and schedules. c45_wide_violated: int16_t overflow beyond that; c45_room_violated: assertion failure."
  },
  {
   "property": "C46",
   "status": "partial",
   "theorems": [
    "Verif.Enc.c46_raw_partial",
    "Verif.Enc.c46_large_violated"
   ],
   "note": "Every damage region, offset and sane client format; framebuffers below 2 GB of the formats that C47 covers, no allocation failure (which aborts). What a rectangle 2 GB or more behind the beginning of a framebuffer comes to is c46_large_violated: the offset is computed in 32 bits, and no such rectangle is ever encoded."
  },
  {
   "property": "C47",
   "status": "partial",
   "theorems": [
    "Verif.Pixels.c47_size",
    "Verif.Pixels.c47_pixels_partial",
    "Verif.Pixels.c47_identity",
    "Verif.Pixels.c47_pixels_violated"
   ],
   "note": "Proved for every sane client format, every pixel and all 24 and 32 bit source formats. False for 4444 formats (wrong maxima in the table) and big endian source formats (witnesses)."
  },
  {
   "property": "C48",
   "status": "partial",
   "theorems": [
    "Verif.Pixels.c48_formats_partial",
    "Verif.Pixels.c48_formats_violated"
   ],
   "note": "Exact characterisation of the formats for which raw conversion is defined; the server accepts others, two witnesses."
  },
  {
   "property": "C49",
   "status": "partial",
   "theorems": [
    "Verif.Pixels.c49_colour_map_partial"
   ],
   "note": "Whole map and every pixel of the source formats that are converted rightly (see C47). The double arithmetic of the map is that of IEEE 754, rounding to nearest, ties to even."
  },
  {
   "property": "C50",
   "status": "partial",
   "theorems": [
    "Verif.Enc.c50_cursor_partial",
    "Verif.Enc.c50_no_cursor",
    "Verif.Enc.c50_cursor_violated",
    "Verif.Enc.c50_16bit_violated"
   ],
   "note": "Whole cursor message, exact condition for staying inside the reserved memory. False in general: the mask overflows its buffer for widths that are no multiple of eight, and is missing for images without alpha (witnesses). For images of 16 bits with two rows or more no message can be made at all (`c50_16bit_violated`). Transformed cursors are C111."
  },
  {
   "property": "C51",
   "status": "partial",
   "theorems": [
    "Verif.Display.c51_refinery_partial",
    "Verif.Display.c51_first_violated",
    "Verif.Display.c51_wide_violated",
    "Verif.Display.c51_outside_violated"
   ],
   "note": "For all histories of frames of one size up to 32736 with damage inside. c51_wide_violated: the last tile column beyond that is ignored; c51_outside_violated: damage outside writes beyond the hashes; c51_first_violated: new tiles with the hash zero are not reported."
  },
  {
   "property": "C52",
   "status": "partial",
   "theorems": [
    "Verif.Display.c52_transform_partial",
    "Verif.Display.c52_wide_violated"
   ],
   "note": "Holds for all transforms and all sizes below 32768. From 32768 columns on the matrix overflows, and damage is moved to where there are no pixels (c52_wide_violated)."
  },
  {
   "property": "C53",
   "status": "partial",
   "theorems": [
    "Verif.Flow.c53_window",
    "Verif.Flow.c53_defined_partial",
    "Verif.Flow.c53_overflow_violated"
   ],
   "note": "The estimate after every sample fed is a function of the last 16 samples and the last minimum round-trip time (c53_window, for every history). That the sums fit in an int is only proved for tame samples; c53_overflow_violated is a history where they do not. Quotients are exact in the model where the code rounds a double."
  },
  {
   "property": "C54",
   "status": "proved",
   "theorems": [
    "Verif.System.c54_set",
    "Verif.System.c54_name"
   ],
   "note": "What nvnc_set_name keeps is the longest prefix without a zero byte of at most 255 bytes; every ServerInit sent until the next change carries exactly it with its length."
  },
  {
   "property": "C55",
   "status": "partial",
   "theorems": [
    "Verif.System.c55_led_partial",
    "Verif.System.c55_led_violated"
   ],
   "note": "Sent only to clients that asked and only for a state not told last; the form is right for the QEMU extension. False for clients with only the VMware extension: the rectangle says QEMU and three stray bytes follow (c55_led_violated)."
  },
  {
   "property": "C56",
   "status": "partial",
   "theorems": [
    "Verif.System.c56_count_partial",
    "Verif.System.c56_count_violated"
   ],
   "note": "Every update announces its own rectangles plus those of the encoder modulo 65536, with nothing in between. False from 65536 rectangles on (c56_count_violated) and for VMware LED updates; the rectangles of the encoders are covered by C41-C46."
  },
  {
   "property": "C57",
   "status": "partial",
   "theorems": [
    "Verif.H264.c57_rects_partial",
    "Verif.H264.c57_memory_violated",
    "Verif.H264.c57_pending_violated"
   ],
   "note": "For every history of an encoder while there is memory; libavcodec is a parameter. Without memory NULL is handed on, or a length wraps."
  },
  {
   "property": "C58",
   "status": "proved",
   "theorems": [
    "Verif.Rating.c58_range",
    "Verif.Rating.c58_deepest"
   ],
   "note": "For every population of clients, format, modifier below 2^64 and buffer type; ratings are exact fractions in the model where the code has doubles. The values of the modifiers are those of drm_fourcc.h, which is not part of the repository."
  },
  {
   "property": "C59",
   "status": "partial",
   "theorems": [
    "Verif.Flow.c59_min",
    "Verif.Flow.c59_defined_partial",
    "Verif.Flow.c59_wrap_violated",
    "Verif.Flow.c59_forged_violated"
   ],
   "note": "For every history that runs without signed overflow the minimum is that of the measurements; honest histories run without. The int32 clock overflows after 2^31 microseconds and with forged answers."
  },
  {
   "property": "C60",
   "status": "partial",
   "theorems": [
    "Verif.Server.c60_lifetime_partial",
    "Verif.Server.c60_message_violated",
    "Verif.Server.c60_close_violated",
    "Verif.Server.c60_once_partial",
    "Verif.Server.c60_handshake_violated",
    "Verif.Server.c60_queued_violated",
    "Verif.Server.c60_resize_violated",
    "Verif.Server.c60_encoder_violated"
   ],
   "note": "False in the code: any message of an unknown type, a handshake that fails on a bad response, and a framebuffer update after the display is gone, free the client inside its own handler and go on using it; a connection closed by the application while a close is already scheduled, and a last message still queued at hang-up, free it twice; and a ZRLE or Tight encoder that cannot be made is referenced all the same (witnesses, the first two for every client). Proved for clients that keep to the protocol, while there is memory for those encoders, for every history including hang-up, read errors and application close: no use after free, and the client goes live, closing, dead exactly once. Proved for every peer, also a hostile one: without those closes no client is destroyed twice and one whose stream is closed is destroyed at the next turn of the event loop."
  },
  {
   "property": "C61",
   "status": "partial",
   "theorems": [
    "Verif.Http.c61_accept_key",
    "Verif.Http.c61_answers",
    "Verif.Http.c61_browsers",
    "Verif.Http.c61_protocol_violated"
   ],
   "note": "Accept key and completeness proved for every SHA-1 function, with a version field as browsers send it; false for subprotocols ('char' instead of 'chat', witness)."
  },
  {
   "property": "C62",
   "status": "partial",
   "theorems": [
    "Verif.System.c62_clipboard_violated",
    "Verif.System.c62_clipboard_partial"
   ],
   "note": "False: clients still in the handshake are sent the clipboard too (witness). Proved when every open connection is in its session."
  },
  {
   "property": "C63",
   "status": "partial",
   "theorems": [
    "Verif.Server.c63_sent_partial",
    "Verif.Server.c63_sent_violated"
   ],
   "note": "Proved unless the client changed formats while the frame was encoded and has no fence support; then the frame and its damage are lost (c63_sent_violated)."
  },
  {
   "property": "C64",
   "status": "partial",
   "theorems": [
    "Verif.Enc.c64_cpixel_partial",
    "Verif.Enc.c64_cpixel_violated"
   ],
   "note": "Holds for the formats of CpixelOk; witness for others in c64_cpixel_violated."
  },
  {
   "property": "C65",
   "status": "partial",
   "theorems": [
    "Verif.Enc.c65_basic_partial",
    "Verif.Enc.c65_jpeg_partial",
    "Verif.Enc.c65_small_violated",
    "Verif.Enc.c65_jpeg_violated",
    "Verif.Enc.c65_tpixel_violated"
   ],
   "note": "c65_small_violated: fewer than 12 bytes are compressed nevertheless; c65_jpeg_violated: empty images; c65_tpixel_violated: wrong pixel size."
  },
  {
   "property": "C66",
   "status": "partial",
   "theorems": [
    "Verif.Display.c66_display_partial",
    "Verif.Display.c66_unrefined_partial",
    "Verif.Display.c66_order_violated",
    "Verif.Display.c66_overtaken_violated",
    "Verif.Display.c66_room_violated"
   ],
   "note": "When each frame is finished before the next is fed. c66_order_violated and c66_overtaken_violated: otherwise an older frame may stay; c66_room_violated: damage is lost when memory runs out."
  },
  {
   "property": "C67",
   "status": "partial",
   "theorems": [
    "Verif.Flow.c67_flow_partial",
    "Verif.Flow.c67_stall_violated",
    "Verif.Flow.c67_fast_violated"
   ],
   "note": "The count is right, and clients with nothing in flight are not held back, if the estimate and the limit fit in an int. When the first answer to a frame is the fastest so far the estimate is a division by zero, and the client is held back for ever."
  },
  {
   "property": "C68",
   "status": "partial",
   "theorems": [
    "Verif.Rating.c68_usable_partial",
    "Verif.Rating.c68_transform_violated",
    "Verif.Rating.c68_big_violated"
   ],
   "note": "Encoding and masks for all formats rated above 0; transforms only for those that pixman knows. The others are rated above 0 but abort in resample_now."
  },
  {
   "property": "C69",
   "status": "partial",
   "theorems": [
    "Verif.H264.c69_reset_violated"
   ],
   "note": "Violated: OPEN_H264_FLAG_RESET_CONTEXT is the enumerator 0 used as a bit mask, so that the flags are always 0 (which c57_rects_partial states for all frames)."
  },
  {
   "property": "C70",
   "status": "partial",
   "theorems": [
    "Verif.H264.c70_defined_partial",
    "Verif.H264.c70_key_violated",
    "Verif.H264.c70_empty_violated"
   ],
   "note": "Holds for all histories in which a codec could be created for the first frame and no framebuffer is empty. Otherwise a full update request dereferences NULL; an empty framebuffer fails an assertion, whatever came before."
  },
  {
   "property": "C71",
   "status": "partial",
   "theorems": [
    "Verif.H264.c71_frames_partial",
    "Verif.H264.c71_stall_violated",
    "Verif.H264.c71_queue_violated"
   ],
   "note": "For all histories in which the server asks for one frame at a time and the codec gives data for each. An empty packet stalls the client; a queue is lost with its codec."
  },
  {
   "property": "C72",
   "status": "proved",
   "theorems": [
    "Verif.H264.c72_codec"
   ],
   "note": "For every history."
  },
  {
   "property": "C73",
   "status": "proved",
   "theorems": [
    "Verif.H264.c73_keys"
   ],
   "note": "For every history."
  },
  {
   "property": "C74",
   "status": "partial",
   "theorems": [
    "Verif.Keys.c74_login_partial",
    "Verif.Keys.c74_server_partial",
    "Verif.Keys.c74_server_violated",
    "Verif.Keys.c74_any_client"
   ],
   "note": "The code violates it: a server public key with a leading zero byte (one in 256) fails an assertion when the client chooses the security type. For all other secrets the credentials arrive. AES and MD5 are parameters."
  },
  {
   "property": "C75",
   "status": "partial",
   "theorems": [
    "Verif.Keys.c75_challenge_partial",
    "Verif.Keys.c75_lost_bytes_partial",
    "Verif.Keys.c75_challenge_violated",
    "Verif.Keys.c75_session_partial",
    "Verif.Keys.c75_length_violated"
   ],
   "note": "The code violates it: a ciphertext with leading zero bytes is sent without its last bytes, and the transcript of a key whose length is not a multiple of 8 bits is not the one exchanged. Proved for all other cases. RSA and the hash functions are parameters."
  },
  {
   "property": "C76",
   "status": "partial",
   "theorems": [
    "Verif.Keys.c76_defined_partial",
    "Verif.Keys.c76_stack_violated",
    "Verif.Keys.c76_assert_violated"
   ],
   "note": "The code violates it: keys longer than 1022 bytes overflow the stack; keys Nettle refuses or with an exponent longer than the modulus fail an assertion once the client's challenge decrypts. Proved for all other keys."
  },
  {
   "property": "C77",
   "status": "partial",
   "theorems": [
    "Verif.Server.c77_served_partial",
    "Verif.Server.c77_resumed_partial",
    "Verif.Server.c77_off_violated",
    "Verif.Server.c77_outside_violated"
   ],
   "note": "The code violates it: turning continuous updates off does not process pending requests, and a request for an area outside the continuous-updates rectangle is not answered. Proved for runs in which continuous updates are not turned off and nested reads find nothing."
  },
  {
   "property": "C78",
   "status": "proved",
   "theorems": [
    "Verif.Tls.c78_in_order",
    "Verif.Tls.c78_exactly_once",
    "Verif.Tls.c78_accepts_everything"
   ],
   "note": "For all runs of the TLS stream model."
  },
  {
   "property": "C79",
   "status": "partial",
   "theorems": [
    "Verif.Tls.c79_waits_partial",
    "Verif.Tls.c79_upgrade_violated",
    "Verif.Tls.c79_handshake_violated"
   ],
   "note": "The code violates it for what is left in the TCP queue at the upgrade and for data handed over during the handshake. Proved when nothing is handed over before the handshake is over."
  },
  {
   "property": "C80",
   "status": "partial",
   "theorems": [
    "Verif.Tls.c80_reported_partial",
    "Verif.Tls.c80_send_violated",
    "Verif.Tls.c80_handshake_violated"
   ],
   "note": "The code violates it for fatal send errors and for handshakes that fail after their first step. Proved for ends of stream and read errors, as long as neither of these occurs."
  },
  {
   "property": "C81",
   "status": "partial",
   "theorems": [
    "Verif.Tls.c81_received_in_order",
    "Verif.Tls.c81_handed_over_partial",
    "Verif.Tls.c81_event_reads",
    "Verif.Tls.c81_leftover_violated"
   ],
   "note": "Order and completeness are proved for all runs. That nothing waits is violated for records larger than the room left, and proved when records fit."
  },
  {
   "property": "C82",
   "status": "partial",
   "theorems": [
    "Verif.Tls.c82_clear_partial",
    "Verif.Tls.c82_byte_violated"
   ],
   "note": "The code violates it when the TCP queue is not empty at the upgrade. Proved when it is empty."
  },
  {
   "property": "C83",
   "status": "partial",
   "theorems": [
    "Verif.Tls.c83_no_crash_partial",
    "Verif.Tls.c83_read_write_violated",
    "Verif.Tls.c83_full_buffer_violated",
    "Verif.Tls.c83_fence_violated"
   ],
   "note": "The code violates it in three ways (read error on a socket that is also writable, full message buffer after a send, fence whose answer cannot be sent). Proved when events come one at a time, reads have room and the server reads only when told to."
  },
  {
   "property": "C84",
   "status": "proved",
   "theorems": [
    "Verif.V4l2.c84_read_is_held",
    "Verif.V4l2.c84_balanced",
    "Verif.V4l2.c84_no_crash",
    "Verif.V4l2.c84_destroyed",
    "Verif.V4l2.c84_destroy_waits"
   ],
   "note": "VIDIOC_QBUF succeeding and at most four planes are hypotheses of c84_no_crash only; the rest holds of every run that does not crash. How long destroy waits is up to the device (c84_destroy_waits)."
  },
  {
   "property": "C85",
   "status": "partial",
   "theorems": [
    "Verif.V4l2.c85_fed_partial",
    "Verif.V4l2.c85_dropped_violated",
    "Verif.V4l2.c85_keyframe"
   ],
   "note": "Frames fed while the device reads three are dropped without any packet (c85_dropped_violated); otherwise they are given to the device in order. Key-frame requests are proved in full."
  },
  {
   "property": "C86",
   "status": "proved",
   "theorems": [
    "Verif.V4l2.c86_packets",
    "Verif.V4l2.c86_event"
   ],
   "note": "Packets are identified by their time stamps; the device writes only into buffers it has."
  },
  {
   "property": "C87",
   "status": "partial",
   "theorems": [
    "Verif.V4l2.c87_next_feed_partial",
    "Verif.V4l2.c87_idle_violated"
   ],
   "note": "Violated: finished framebuffers are released only when another frame is fed or the encoder ends (c87_idle_violated); c87_next_feed_partial is what holds."
  },
  {
   "property": "C88",
   "status": "partial",
   "theorems": [
    "Verif.V4l2.c88_setup_partial",
    "Verif.V4l2.c88_formats_violated",
    "Verif.V4l2.c88_buffers_violated",
    "Verif.V4l2.c88_planes_violated",
    "Verif.V4l2.c88_byte_order_violated"
   ],
   "note": "Violated: more than 256 formats, more or fewer than three buffers, more than four planes; every chosen format has its bytes in reverse order, according to drm_fourcc.h and videodev2.h. The table for the bcm2835 driver is in C110."
  },
  {
   "property": "C89",
   "status": "partial",
   "theorems": [
    "Verif.Listen.c89_closed_once_partial",
    "Verif.Listen.c89_all_closed_partial",
    "Verif.Listen.c89_no_buffer_violated"
   ],
   "note": "Violated by a client that connects before the application has fed a buffer: its descriptor is closed twice (c89_no_buffer_violated). Proved for runs in which the display has a buffer before anyone connects."
  },
  {
   "property": "C90",
   "status": "partial",
   "theorems": [
    "Verif.Listen.c90_app_files",
    "Verif.Listen.c90_removed_partial",
    "Verif.Listen.c90_listening",
    "Verif.Listen.c90_left_behind_violated"
   ],
   "note": "Violated when listening on a bound Unix socket for the plain protocol fails: the file stays (c90_left_behind_violated). That the application's files stay and that the file exists while listening is proved for every run."
  },
  {
   "property": "C91",
   "status": "partial",
   "theorems": [
    "Verif.Listen.c91_accepts_partial",
    "Verif.Listen.c91_no_display_violated",
    "Verif.Listen.c91_unix_violated"
   ],
   "note": "Violated without a display (NULL dereference) and by clients of Unix sockets (uninitialised string is logged). Proved for runs with a display that has a buffer."
  },
  {
   "property": "C92",
   "status": "partial",
   "theorems": [
    "Verif.Fb.c92_room_partial",
    "Verif.Fb.c92_apart_partial",
    "Verif.Fb.c92_wraps_violated",
    "Verif.Fb.c92_overflow_violated",
    "Verif.Fb.c92_stride_violated"
   ],
   "note": "Violated for sizes of 4 GiB and above (wraps), for 2^31 pixels and above (signed overflow), and for strides below the width. Proved otherwise."
  },
  {
   "property": "C93",
   "status": "partial",
   "theorems": [
    "Verif.Fb.c93_freed",
    "Verif.Fb.c93_release",
    "Verif.Fb.c93_reads_partial",
    "Verif.Fb.c93_unmapped_partial",
    "Verif.Fb.c93_device_violated",
    "Verif.Fb.c93_leak_violated",
    "Verif.Fb.c93_race_violated",
    "Verif.Fb.c93_same_cursor_violated"
   ],
   "note": "Freeing and the release callback are proved for every run. Mapping is violated by the hardware encoder, which unmaps under other users, and by two threads that map at once (leak, NULL); proved without these. nvnc_set_cursor releases before it holds."
  },
  {
   "property": "C94",
   "status": "partial",
   "theorems": [
    "Verif.Server.c94_pc_keys",
    "Verif.Server.c94_distinct_partial",
    "Verif.Server.c94_ghosts_violated",
    "Verif.Server.c94_ghosts_partial"
   ],
   "note": "The 105 keys are proved to arrive as themselves. Violated: a code that the table does not have is passed on unchanged and is taken for another key (c94_ghosts_violated; c94_ghosts_partial: there are 14 of them). Codes beyond the table are C11."
  },
  {
   "property": "C95",
   "status": "proved",
   "theorems": [
    "Verif.Log.c95_routed",
    "Verif.Log.c95_libav"
   ],
   "note": "Levels of libav that are not one of its eight constants become TRACE."
  },
  {
   "property": "C96",
   "status": "partial",
   "theorems": [
    "Verif.Log.c96_text",
    "Verif.Log.c96_passed_on_partial",
    "Verif.Log.c96_empty_violated",
    "Verif.Log.c96_negative_violated"
   ],
   "note": "Violated for the empty text (pointer before the array) and for texts that begin or end with a byte between 128 and 254 (isspace of a negative char). c96_text holds for every text, c96_passed_on_partial for all others."
  },
  {
   "property": "C97",
   "status": "partial",
   "theorems": [
    "Verif.Formats.c97_kept",
    "Verif.Formats.c97_calm_partial",
    "Verif.Server.c97_shown_partial",
    "Verif.Server.c97_current_partial",
    "Verif.Server.c97_lost_violated",
    "Verif.Server.c97_refused_violated"
   ],
   "note": "End to end: an observer copies the picture into each frame handed to the encoder and paints it when the frame is sent. The code violates it: a frame thrown away after a change of encodings takes its damage along, as does a frame the encoder refuses. Proved for all runs in which no frame is lost; c97_kept: when nested reads find nothing, no frame is lost for clients that keep their pixel format and encodings while a frame is encoded, or that have fences, and c97_calm_partial is for them; c97_current_partial also uses C77 and needs its conditions."
  },
  {
   "property": "C98",
   "status": "partial",
   "theorems": [
    "Verif.Changes.c98_changes_partial",
    "Verif.Changes.c98_unfenced_partial",
    "Verif.Wire.c98_session_partial",
    "Verif.Wire.c98_session_violated",
    "Verif.Wire.c98_raw_partial",
    "Verif.Wire.c98_zrle_partial",
    "Verif.Wire.c98_tight_partial",
    "Verif.Wire.c98_jpeg_partial",
    "Verif.Wire.c98_tight_violated",
    "Verif.Wire.c98_h264_partial",
    "Verif.Wire.c98_cursor_partial",
    "Verif.Wire.c98_cursor_violated"
   ],
   "note": "c98_session_partial: over all runs of the server, provided that frames and cursors are readable, that no client chose VMware's LED encoding alone, that frames have less than 65534 rectangles and that the client keeps its pixel format. c98_changes_partial: the same with changes of the pixel format, each part of the session read with the sizes of its format, if no frame is sent in an older format; c98_unfenced_partial: which holds of clients that do not ask for fences and whose encoder is never handed two frames at once. The other c98 theorems show readability of what each encoder writes. Messages of the handshake: C115. Violated: LED rectangles have QEMU's number (c98_session_violated), small Tight rectangles are compressed (c98_tight_violated), a cursor without alpha has no mask (c98_cursor_violated)."
  },
  {
   "property": "C99",
   "status": "partial",
   "theorems": [
    "Verif.Formats.c99_calm_partial",
    "Verif.Wire.c99_decoded_partial",
    "Verif.Wire.c99_shown_partial",
    "Verif.Wire.c99_raw_partial",
    "Verif.Wire.c99_zrle_partial",
    "Verif.Wire.c99_tight_partial",
    "Verif.Wire.c99_session_partial",
    "Verif.Repaint.c99_formats_partial",
    "Verif.Repaint.c99_formats_shown_partial",
    "Verif.Repaint.c99_formats_calm_partial"
   ],
   "note": "c99_decoded_partial: what the client decodes from the bytes is what the observer of C97 sees, over all runs, provided that every frame draws the region and picture handed to the encoder (Faithful; the decoder may depend on all that the same encoder made before), that everything sent is readable (C98), that no frame was lost, and that the client keeps its pixel format. c99_shown_partial adds C97. c99_formats_partial and c99_formats_shown_partial: the same for clients that change their pixel format, each part of the session read and decoded in the format of its time, if no frame is sent in an older one (C98); c99_formats_calm_partial: which holds of clients that lose no frame by C97 and do not ask for fences. c99_session_partial derives Faithful from the encoders themselves: for any mixture of frames from the modelled raw, ZRLE and Tight encoders (each with its own zlib streams, kept over the connection) a client that inflates and decodes them sees the application's colours at its own precision. Law used about zlib: what was put in before a completed flush is what the client's zlib gets out of the bytes so far. c99_calm_partial: the same for clients of which C97 shows that no frame is lost, whenever they wait for an update and the server is not busy. c99_raw_partial, c99_zrle_partial, c99_tight_partial: single frames. Missing: the formats, palettes and small tiles for which C41, C43, C64 and C65 fail, JPEG and H.264, several framebuffers in a frame."
  },
  {
   "property": "C100",
   "status": "partial",
   "theorems": [
    "Verif.Formats.c100_calm_partial",
    "Verif.Wire.c100_complete_partial",
    "Verif.Wire.c100_gap_violated",
    "Verif.Server.c100_one_stream",
    "Verif.Server.c100_unbroken"
   ],
   "note": "c100_one_stream and c100_unbroken: over all runs, one encoder for all frames in ZRLE and one for all in Tight, and no other encoder comes between frames of one. c100_complete_partial: as long as no frame was lost, the rectangles that the client has in ZRLE or Tight are exactly those its encoder has made; c100_calm_partial: for the clients that lose no frame by C97. Violated: a frame that is dropped because the formats changed has already gone through the compressor (c100_gap_violated)."
  },
  {
   "property": "C101",
   "status": "partial",
   "theorems": [
    "Verif.System.c101_isolated_partial",
    "Verif.System.c101_clipboard_violated",
    "Verif.System.c101_sectypes_violated"
   ],
   "note": "c101_isolated_partial: for every set of clients, two histories that differ only in the events of those clients leave all others in the same state with the same log, once the list of security types is fixed, if none of them asks for exclusive access (C06) and the clipboard is set only while some client outside the set supports the extended clipboard. Without the last two conditions it is false in the code (c101_clipboard_violated, c101_sectypes_violated). Both histories must reach no undefined behaviour. Sharing of processor time, memory and encoder threads between clients is not modelled."
  },
  {
   "property": "C102",
   "status": "partial",
   "theorems": [
    "Verif.System.c102_encrypted_partial",
    "Verif.System.c102_encryption_violated",
    "Verif.System.c102_clipboard_violated"
   ],
   "note": "False in the code: requiring encryption without authentication offers \"none\" and gives a session in the clear, and clipboard texts go to connections that are not encrypted yet (witnesses). Proved for servers that require both from the start: credentials are only looked at, and anything of a session only happens, after the upgrade, and what is written in the clear is handshake messages and clipboard texts only."
  },
  {
   "property": "C103",
   "status": "proved",
   "theorems": [
    "Verif.System.c103_enters",
    "Verif.System.c103_refused"
   ],
   "note": "For clients that wait for each answer before they send the next message. The run either goes as stated or was spoiled by others: undefined behaviour or an abort in an operation of another client or of the application, or another client asking for exclusive access. That what is encrypted decrypts to what was meant, that hashes agree and that TLS can be started are hypotheses on the environment."
  },
  {
   "property": "C104",
   "status": "partial",
   "theorems": [
    "Verif.WsStream.c104_nothing_early",
    "Verif.WsStream.c104_reader",
    "Verif.WsStream.c104_framed_partial",
    "Verif.WsStream.c104_received_partial",
    "Verif.WsStream.c104_quiet",
    "Verif.WsStream.c104_input_partial",
    "Verif.WsStream.c104_witness",
    "Verif.WsStream.c104_interleaved_violated",
    "Verif.WsStream.c104_retry_violated",
    "Verif.WsStream.c104_full_socket_violated",
    "Verif.WsStream.c104_split_ping_violated",
    "Verif.WsStream.c104_cut_violated"
   ],
   "note": "Proved: nothing before the request is complete; then the reply and whole frames, those of the user in order; with idle callbacks and whole pings the client's reader gets exactly what was sent; input behind the request is delivered as C30 says. False (witnesses): callbacks that send while a header is written, functions retried on a full socket (c104_full_socket_violated: in every state of an open stream), pings in pieces, requests cut behind the key."
  },
  {
   "property": "C105",
   "status": "partial",
   "theorems": [
    "Verif.EncWork.c105_safe_partial",
    "Verif.EncWork.c105_once_partial",
    "Verif.EncWork.c105_given_back_partial",
    "Verif.EncWork.c105_ends_partial",
    "Verif.EncWork.c105_pts_violated",
    "Verif.EncWork.c105_start_violated",
    "Verif.EncWork.c105_finish_violated",
    "Verif.EncWork.c105_resize_violated",
    "Verif.EncWork.c105_map_violated"
   ],
   "note": "Proved for all interleavings: safe, each frame once and in order, everything given back, the end is reached. Missing, with witnesses: Tight's time of frames given while another is handed over, workers that start only in part, Tight's last work failing, a failed resize, framebuffers that cannot be mapped."
  },
  {
   "property": "C106",
   "status": "partial",
   "theorems": [
    "Verif.Formats.c106_formats_partial",
    "Verif.Formats.c106_single",
    "Verif.Formats.c106_asked",
    "Verif.Formats.c106_stale_violated"
   ],
   "note": "c106_formats_partial: over all runs of a server, for clients whose encoder is never handed a frame while it has another one (Single); c106_single: which is so whenever nested reads find nothing. Each frame that is sent is judged by the frames that were with the encoder when it was finished. Missing: with two frames at the encoder the one from before a change of the format may be sent (witness c106_stale_violated)."
  },
  {
   "property": "C107",
   "status": "partial",
   "theorems": [
    "Verif.Displays.c107_orders_partial",
    "Verif.Displays.c107_alive",
    "Verif.Displays.c107_display_alive",
    "Verif.Displays.c107_once",
    "Verif.Displays.c107_cleanup",
    "Verif.Displays.c107_over",
    "Verif.Displays.c107_records_partial",
    "Verif.Displays.c107_framebuffer_last_violated",
    "Verif.Displays.c107_display_violated",
    "Verif.Displays.c107_server_violated",
    "Verif.Displays.c107_feed_violated",
    "Verif.Displays.c107_orders_violated",
    "Verif.Displays.c107_user_violated",
    "Verif.Displays.c107_record_violated"
   ],
   "note": "Lifetimes, freeing once, clean-up and the end are proved for all histories of an application that is careful (no feeding after nvnc_del; a display goes after jobs and the framebuffers fed to it with a transform; the server goes after jobs); freeing once and clean-up for all histories. Missing: without such care the code uses freed displays, resamplers and servers, attaches its own record to the application's framebuffer, and leaks it (all with witnesses)."
  },
  {
   "property": "C108",
   "status": "partial",
   "theorems": [
    "Verif.Make.c108_constructors",
    "Verif.Make.c108_constructors_partial",
    "Verif.Make.c108_tight_partial",
    "Verif.Make.c108_avframe_partial",
    "Verif.Make.c108_lives_partial",
    "Verif.Make.c108_resampler_partial",
    "Verif.Make.c108_encoders_violated",
    "Verif.Make.c108_frame_violated",
    "Verif.Make.c108_refinery_violated",
    "Verif.Make.c108_others_violated"
   ],
   "note": "Proved without exceptions for buffers from memory, Raw, ZRLE, framebuffers, resamplers, displays, TCP streams, RSA-AES upgrades and TLS credentials; for Tight, string buffers, WebSocket and TLS streams, both H.264 encoders, resampler_feed and the loading of RSA keys as long as the calls named in the theorems work. Missing: when one of those fails the code leaks, gives back twice, or uses NULL or memory never written (all with witnesses)."
  },
  {
   "property": "C109",
   "status": "partial",
   "theorems": [
    "Verif.Pem.c109_load",
    "Verif.Pem.c109_exact",
    "Verif.Pem.c109_refused",
    "Verif.Pem.c109_windows_violated",
    "Verif.Pem.c109_cut_violated"
   ],
   "note": "Proved: every key in every split into lines is imported as it is, whatever follows; memory safety and what exactly is imported, for every file; other kinds are refused. Missing, because the code does otherwise: files with Windows line ends are refused for every key, and files without an END line or cut off within the text are not refused here (witnesses). What nettle does with the decoded bytes is not modelled."
  },
  {
   "property": "C110",
   "status": "partial",
   "theorems": [
    "Verif.Device.c110_device_partial",
    "Verif.Device.c110_formats_partial",
    "Verif.Device.c110_step_violated",
    "Verif.Device.c110_padding_violated",
    "Verif.Device.c110_steps_violated",
    "Verif.Device.c110_next_violated",
    "Verif.Device.c110_answer_violated",
    "Verif.Device.c110_planes_partial",
    "Verif.Device.c110_planes_violated"
   ],
   "note": "Proved: which device is chosen, for all directories in which no device has a step of zero; the formats and sizes it is set to, and exactly when there is an encoder, for drivers that do what they are asked for or fail, other than bcm2835; planes of framebuffers whose height is a multiple of 16. Missing, because the code does otherwise (witnesses): a step of zero is divided by; the padded size and the steps are not compared with what the device has; other devices are not tried; what the driver answers is not looked at; on bcm2835 formats are not compared with what is there; with any other height the device is told of rows that do not exist."
  },
  {
   "property": "C111",
   "status": "partial",
   "theorems": [
    "Verif.Turned.c111_turned_partial",
    "Verif.Turned.c111_hotspot_violated",
    "Verif.Turned.c111_part_violated",
    "Verif.Turned.c111_memset_violated",
    "Verif.Turned.c111_reference_violated"
   ],
   "note": "Proved: pixels, mask and size for whole images of 32 bits with alpha and all transforms, wherever C50 holds; the hotspot for the two transforms for which it is right; references. Missing, because the code does otherwise (witnesses): the hotspot with the other six transforms, parts of images, images of 16 bits (memory written out of bounds for every one of three pixels or more), references if the image cannot be mapped."
  },
  {
   "property": "C112",
   "status": "partial",
   "theorems": [
    "Verif.Labels.c112_encodings",
    "Verif.Labels.c112_names",
    "Verif.Labels.c112_distinct",
    "Verif.Labels.c112_formats_partial",
    "Verif.Labels.c112_three",
    "Verif.Labels.c112_formats_violated"
   ],
   "note": "Encodings: whole statement. Formats: all with four components but RGBX1010102, which the log calls UNKNOWN because the table has a green shift of 10 and not 12 (`c112_formats_violated`); shifts of RGB332 and BGR233 have one name. The source says of this function that it is not exact."
  },
  {
   "property": "C113",
   "status": "partial",
   "theorems": [
    "Verif.Ntp.c113_answer",
    "Verif.Ntp.c113_statistics_partial",
    "Verif.Ntp.c113_statistics_violated",
    "Verif.Ntp.c113_zero_violated",
    "Verif.Ntp.c113_server"
   ],
   "note": "The answer is proved for every request. The numbers for clocks within 2^30 \u00b5s (18 minutes) of each other modulo 2^32; for honest clients whose clocks differ by more the code has a signed overflow (`c113_statistics_violated`, for all of them), and a client whose clock reads 0 gets a second answer (`c113_zero_violated`)."
  },
  {
   "property": "C114",
   "status": "partial",
   "theorems": [
    "Verif.Shutdown.c114_waits_partial",
    "Verif.Shutdown.c114_del_partial",
    "Verif.Shutdown.c114_ends_partial",
    "Verif.Shutdown.c114_deferred_violated",
    "Verif.Shutdown.c114_hungup_violated",
    "Verif.Shutdown.c114_connection_violated"
   ],
   "note": "Proved if no closing of a client is due or in a queue, and nobody connects meanwhile: each client is freed once and in order, waits are positive and end. False otherwise: clients who have hung up a moment ago are used after they were freed (`c114_hungup_violated`, always when no encoder is at work; `c114_deferred_violated`), and a connection uses the display, which is gone (`c114_connection_violated`)."
  },
  {
   "property": "C115",
   "status": "partial",
   "theorems": [
    "Verif.Wire.c115_connection_partial",
    "Verif.Wire.c115_tcp_partial",
    "Verif.Wire.c115_clipboard_violated",
    "Verif.Wire.c115_tls",
    "Verif.Wire.c115_ws_partial",
    "Verif.Wire.c115_rsa"
   ],
   "note": "c115_connection_partial: over all runs of the server, provided that the session is readable (C98), that keys and random numbers of the crypto libraries have the lengths that they say, and that nothing but the handshake is sent before ServerInit. That the type by which the stream is read is the one that the client chose is shown only as far as it is one of those offered. c115_tcp_partial, c115_tls, c115_ws_partial, c115_rsa: what arrives through each transport is heard as this. Violated: clipboard text that the application sets during a handshake makes the rest unreadable (c115_clipboard_violated)."
  },
  {
   "property": "C116",
   "status": "partial",
   "theorems": [
    "Verif.Wire.c116_refused_partial",
    "Verif.Wire.c116_vencrypt_violated"
   ],
   "note": "c116_refused_partial: over all runs of the server, for every refusal but that of the VeNCrypt version, if keys and random numbers of the crypto libraries have the lengths that they say and nothing but the handshake is sent before. Violated: another version of VeNCrypt is answered by a SecurityResult whose first byte accepts it (c116_vencrypt_violated)."
  },
  {
   "property": "C117",
   "status": "partial",
   "theorems": [
    "Verif.Userdata.c117_once",
    "Verif.Userdata.c117_cleaned_partial",
    "Verif.Userdata.c117_replaced_violated",
    "Verif.Userdata.c117_shown_partial",
    "Verif.Userdata.c117_close_violated",
    "Verif.Userdata.c117_del_violated"
   ],
   "note": "Nothing is cleaned up twice, what is not replaced is cleaned up exactly once, and callbacks caused by clients are shown only data that have not been cleaned up. The functions of nvnc_set_client_cleanup_fn are shown data that have just been cleaned up: those of the client always, those of the server when it is deleted. Data that are replaced are never cleaned up."
  },
  {
   "property": "C118",
   "status": "partial",
   "theorems": [
    "Verif.Flow.c118_limit_partial",
    "Verif.Flow.c118_round_trip_partial",
    "Verif.Flow.c118_delay_violated"
   ],
   "note": "A frame is held back exactly if the data in flight is more than the link delivers in the shortest round trip (c118_limit_partial, c118_round_trip_partial), if the estimate and the limit fit in an int. The 33 ms beyond it are added to a number of bytes, not to the time, and count for nothing (witness c118_delay_violated)."
  },
  {
   "property": "C119",
   "status": "partial",
   "theorems": [
    "Verif.Enc.c119_image_partial",
    "Verif.Enc.c119_chroma_violated"
   ],
   "note": "c119_image_partial: a frame depends on libjpeg only through calls that show it a tile of the framebuffer with the right size and the right colours, with quality 1 to 100 in steps of 11. Formats whose colours do not have eight bits are C65 (an image of no bytes is sent). Violated: c119_chroma_violated: whatever the level, libjpeg is never asked for full colour resolution, because the quality, which is 11 * level + 1, is compared with 9."
  },
  {
   "property": "C120",
   "status": "partial",
   "theorems": [
    "Verif.Callbacks.c120_callbacks_partial",
    "Verif.Callbacks.c120_exclusive",
    "Verif.Callbacks.c120_self_violated",
    "Verif.Callbacks.c120_again_violated",
    "Verif.Callbacks.c120_next_violated",
    "Verif.Callbacks.c120_walk",
    "Verif.Callbacks.c120_walk_violated"
   ],
   "note": "Holds for applications that do not close a client in its own callbacks or while it is being closed, and close nobody while a client drives out the others (c120_callbacks_partial, c120_exclusive, c120_walk). Closing a client in one of its own callbacks is always undefined (c120_self_violated), so is closing it again when told of its end (c120_again_violated), closing the client next in the list while disconnect_all_other_clients is under way (c120_next_violated), and nvnc_client_next after closing (c120_walk_violated)."
  },
  {
   "property": "C121",
   "status": "partial",
   "theorems": [
    "Verif.Creds.c121_shown_partial",
    "Verif.Creds.c121_handshake_partial",
    "Verif.Creds.c121_failed_violated",
    "Verif.Creds.c121_changed_violated",
    "Verif.Creds.c121_tls"
   ],
   "note": "Proved for all histories in which every file is good (c121_shown_partial) and for all handshakes during which the key is not set (c121_handshake_partial); certificates in full (c121_tls). A call of nvnc_set_rsa_creds that fails takes the old key away and leaves an unusable one, which is shown to every client (c121_failed_violated); a key set during a handshake is used for what was encrypted for the old one (c121_changed_violated)."
  },
  {
   "property": "C122",
   "status": "partial",
   "theorems": [
    "Verif.AvFrame.c122_bytes",
    "Verif.AvFrame.c122_told",
    "Verif.AvFrame.c122_no_crash",
    "Verif.AvFrame.c122_extent_partial",
    "Verif.AvFrame.c122_extent_violated",
    "Verif.AvFrame.c122_descriptor_violated"
   ],
   "note": "Proved for all sequences: sizes, formats, places of all bytes (c122_told), no crash with at most four planes (c122_no_crash). The size of the memory includes planes that begin where the memory does (c122_extent_partial); a plane that begins further on is never within it (c122_extent_violated). A descriptor that could not be made is passed on (c122_descriptor_violated). The picture formats of FFmpeg are taken from its documentation."
  },
  {
   "property": "C123",
   "status": "partial",
   "theorems": [
    "Verif.Server.c123_text_partial",
    "Verif.Server.c123_bad_partial",
    "Verif.Server.c123_short_violated",
    "Verif.Server.c123_length_violated"
   ],
   "note": "Proved for messages that hold all bytes they announce, and for those that cannot be decompressed. False for every message that holds fewer: the buffer is read where nothing was written (c123_short_violated, c123_length_violated)."
  },
  {
   "property": "C124",
   "status": "partial",
   "theorems": [
    "Verif.Formats.c124_lossless",
    "Verif.Formats.c124_range",
    "Verif.Formats.c124_same",
    "Verif.Formats.c124_asked_partial"
   ],
   "note": "Proved over all runs, except for levels behind 32 supported encodings, which the server ignores (C12)."
  },
  {
   "property": "C125",
   "status": "partial",
   "theorems": [
    "Verif.Extensions.c125_answers_partial",
    "Verif.Extensions.c125_announced",
    "Verif.Extensions.c125_first_partial",
    "Verif.Extensions.c125_late_violated"
   ],
   "note": "Proved over all runs, for open connections, for fences, continuous updates and the clipboard; the announcement is right and comes at most once, and answers a first request. False for clients that name the QEMU key event or the clocks after their first request: they are never told (c125_late_violated)."
  },
  {
   "property": "C126",
   "status": "proved",
   "theorems": [
    "Verif.Sizes.c126_frames",
    "Verif.Sizes.c126_told",
    "Verif.Sizes.c126_kept"
   ],
   "note": "Proved over all runs; clients that cannot be told a size are C60. Frames without width and without height are an exception, which no framebuffer has."
  },
  {
   "property": "C127",
   "status": "proved",
   "theorems": [
    "Verif.Times.c127_frames",
    "Verif.Times.c127_times"
   ],
   "note": "The record notes the encodings that the server took note of: the first 32 that it knows; -1000 is among those that it knows only in builds with experimental features."
  },
  {
   "property": "C128",
   "status": "partial",
   "theorems": [
    "Verif.Pointers.c128_wanted",
    "Verif.Pointers.c128_count",
    "Verif.Pointers.c128_served_partial",
    "Verif.Pointers.c128_asked_partial",
    "Verif.Pointers.c128_unencoded_violated"
   ],
   "note": "Cursors go to the clients that want them, and not more often than they are set. A request is used up by a cursor that cannot be encoded (c128_unencoded_violated)."
  },
  {
   "property": "C129",
   "status": "partial",
   "theorems": [
    "Verif.Leds.c129_set_partial",
    "Verif.Leds.c129_asked_partial"
   ],
   "note": "Clients that named only the VMware encoding of LED states get a message they cannot read (C55)."
  }
 ]
}