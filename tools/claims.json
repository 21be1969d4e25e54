{
 "C37": {
  "status": "proved",
  "note": "All byte strings. Table index safety included; string length bounded by int in base64_is_valid is not modelled."
 },
 "C26": {
  "status": "proved",
  "note": "All histories, kernel answers and re-entrant callbacks; sharing of one buffer between several streams is not modelled. sendmsg is assumed not to report more than it was given."
 },
 "C27": {
  "status": "partial",
  "note": "Exactly-once completion proved for every execution that reaches no undefined behaviour; two reachable cases of undefined behaviour in the code are exhibited and excluded by c27_no_ub_partial."
 },
 "C28": {
  "status": "partial",
  "note": "False in the code: a write ending at a request boundary loses the wake-up, and so does a message sent from a completion callback when the write took all that stood before it (witnesses). Proved: after any history without sends from callbacks, other errors than EAGAIN/EPIPE and writes ending exactly between messages, the stream waits for writability whenever its queue is not empty; and one that waits writes its whole queue, in order, once the kernel takes it."
 },
 "C29": {
  "status": "partial",
  "note": "Parsing proved safe and exact for every buffer; headers the server writes (unmasked, any length) round-trip. False for masked headers, where the key is written over the header (witness); no caller in the tree writes one."
 },
 "C30": {
  "status": "partial",
  "note": "False in general: mask phase restarts per fragment, split headers and interleaved control frames break it (three witnesses). Proved: what is delivered equals an RFC 6455 byte-wise decoder whenever the segmentation avoids these cases."
 },
 "C31": {
  "status": "partial",
  "note": "False for masked pings (every ping of a conforming client) and pings split across reads (witnesses). Proved for unmasked pings arriving whole."
 },
 "C32": {
  "status": "partial",
  "note": "Termination, soundness and exact parsing of well-formed requests proved, and that only GET requests in HTTP/1.1 are taken. False: more than 32 fields overflow the array, and truncated requests are accepted (witnesses). Memory safety of the lexer rests on NUL termination, which the representation of positions as suffixes builds in."
 },
 "C33": {
  "status": "partial",
  "note": "False: any white space in a protocol or version value loops forever (proved for every iteration budget). Proved to terminate otherwise."
 },
 "C61": {
  "status": "partial",
  "note": "Accept key and completeness proved for every SHA-1 function, with a version field as browsers send it; false for subprotocols ('char' instead of 'chat', witness)."
 },
 "C01": {
  "status": "partial",
  "note": "False in general: the security list is cached at the first version message, so requiring authentication later does not reach new clients (witness). Proved for every run in which the authentication settings are fixed before the first client."
 },
 "C02": {
  "status": "proved",
  "note": "Every reachable state of every run that ends without undefined behaviour; the decryption functions and the application's verdict are arbitrary."
 },
 "C03": {
  "status": "partial",
  "note": "False when settings change after the first version message (witness: cached list). Proved: with settings fixed before the first client, exactly the list the settings call for is offered and only offered types are entered."
 },
 "C04": {
  "status": "proved",
  "note": "Every run of any number of clients that ends without undefined behaviour."
 },
 "C06": {
  "status": "proved",
  "note": "Every reachable server, every event. disconnect_all_other_clients is applied at the end of the event instead of in the middle."
 },
 "C62": {
  "status": "partial",
  "note": "False: clients still in the handshake are sent the clipboard too (witness). Proved when every open connection is in its session."
 },
 "C05": {
  "status": "partial",
  "note": "False: bytes buffered behind the upgrade request are interpreted inside the encrypted session (witness with injected credentials and a key event). Proved: once the connection is encrypted and the buffer is empty, nothing that arrived in plain text is interpreted any more."
 },
 "C08": {
  "status": "partial",
  "note": "False for a fence cut off after 8 bytes (sizeof of a pointer, witness). Proved for every run without undefined behaviour: the unread part stays inside the buffer and in its capacity."
 },
 "C25": {
  "status": "proved",
  "note": "Every run of any number of clients that ends without undefined behaviour, including failing encoder allocation and every way of leaving."
 },
 "C07": {
  "status": "partial",
  "note": "False for a fence cut off after its eighth byte and for fence responses shorter than 8 bytes, which read what follows them (witnesses). Proved for every well-formed sequence without fences cut there, without fence requests and without the stalls of C09: callbacks and settings depend only on the bytes, for every segmentation and every interleaving with other events; and for the messages that do not involve framebuffer updates every segmentation is processed without undefined behaviour."
 },
 "C10": {
  "status": "partial",
  "note": "All field values, any sequence of messages in any segmentation. Missing: QEMU codes outside the table (see C11)."
 },
 "C11": {
  "status": "partial",
  "note": "False for every code of at least 254 (unchecked table index, proved for all of them). Proved for all codes inside the table."
 },
 "C12": {
  "status": "partial",
  "note": "False when a quality level follows 32 supported encodings (witness). Proved for every list up to that point."
 },
 "C14": {
  "status": "partial",
  "note": "Over-long text is a use after free (proved for every length over the limit). Proved for every text within the limit and every segmentation."
 },
 "C09": {
  "status": "partial",
  "note": "False for incremental requests during continuous updates and fence requests while updates are pending (proved for every such state), for SetEncodings with 1024 or more entries, and for messages held back by a fence, which stay in the buffer after its answer until more data arrives (witness), and for ever if the fence arrived while a frame was being written and nothing more is requested (witness, for all later events). Proved for every other message and state."
 },
 "C13": {
  "status": "proved",
  "note": "Frames started by any message and by any event other than reading, when nested reads find nothing. choose_frame_encoding compared with an independent specification for every list and framebuffer."
 },
 "C19": {
  "status": "proved",
  "note": "All SetDesktopSize messages; the exact reply bytes. Number of screens at most 255 by the message format. c19_read: what the application reads of the layout with the library's functions."
 },
 "C20": {
  "status": "partial",
  "note": "False for two fences during one frame, and for one that arrives while a frame is being written and is not followed by a request for another (witnesses). Proved for every client of every run: the answers are a subsequence of those asked for, and a client that waits for each answer before the next request has got all of them but perhaps the last, which the server holds. Also proved for fences that can be answered at once and for one fence that waits for the frame under way."
 },
 "C21": {
  "status": "partial",
  "note": "False: witnesses that fail an assertion (c21_fences_violated, and c21_tight_violated for the encoder). Proved: while no fence waits, no event and no message aborts except through the tight encoder assertion; and any message but a fence that has to wait keeps it so."
 },
 "C22": {
  "status": "partial",
  "note": "False when the answer to a pending fence reads further messages (witness c22_unsolicited_violated). Proved for all runs in which nested reads find nothing."
 },
 "C23": {
  "status": "partial",
  "note": "False when the answer to a pending fence reads further messages (witness c23_one_frame_violated). Proved for all runs in which nested reads find nothing; frames that the encoder refuses count as well."
 },
 "C24": {
  "status": "partial",
  "note": "False when the encoder refuses a frame (witness c24_damage_violated). Proved for all runs in which it does not, whatever nested reads find."
 },
 "C15": {
  "status": "proved",
  "note": "For every text without a zero byte, whether its message arrives in one piece or in several; zlib's inflate is a parameter."
 },
 "C16": {
  "status": "proved",
  "note": "Over all runs of a server: everything sent about the clipboard is allowed by the client's last words (c16_consent), and what is sent for an offered text is given exactly (c16_offer, c16_reply)."
 },
 "C17": {
  "status": "partial",
  "note": "False: the announced length leaves out the zero byte that the decoder requires (c17_provide_violated, for every text). Proved for messages whose length counts it."
 },
 "C18": {
  "status": "partial",
  "note": "False for length fields -1, -2 and -3 (witness c18_bounds_violated). Proved for every other length field."
 },
 "C54": {
  "status": "proved",
  "note": "What nvnc_set_name keeps is the longest prefix without a zero byte of at most 255 bytes; every ServerInit sent until the next change carries exactly it with its length."
 },
 "C55": {
  "status": "partial",
  "note": "Sent only to clients that asked and only for a state not told last; the form is right for the QEMU extension. False for clients with only the VMware extension: the rectangle says QEMU and three stray bytes follow (c55_led_violated)."
 },
 "C56": {
  "status": "partial",
  "note": "Every update announces its own rectangles plus those of the encoder modulo 65536, with nothing in between. False from 65536 rectangles on (c56_count_violated) and for VMware LED updates; the rectangles of the encoders are covered by C41-C46."
 },
 "C63": {
  "status": "partial",
  "note": "Proved unless the client changed formats while the frame was encoded and has no fence support; then the frame and its damage are lost (c63_sent_violated)."
 },
 "C38": {
  "status": "proved",
  "note": "All sequences of operations with any allocation outcome; total size below 2^63 (size_t overflow of the doubling is excluded by address space)."
 },
 "C47": {
  "status": "partial",
  "note": "Proved for every sane client format, every pixel and all 24 and 32 bit source formats. False for 4444 formats (wrong maxima in the table) and big endian source formats (witnesses)."
 },
 "C48": {
  "status": "partial",
  "note": "Exact characterisation of the formats for which raw conversion is defined; the server accepts others, two witnesses."
 },
 "C49": {
  "status": "partial",
  "note": "Whole map and every pixel of the source formats that are converted rightly (see C47). The double arithmetic of the map is that of IEEE 754, rounding to nearest, ties to even."
 },
 "C46": {
  "status": "partial",
  "note": "Every damage region, offset and sane client format; framebuffers below 2 GB of the formats that C47 covers, no allocation failure (which aborts). What a rectangle 2 GB or more behind the beginning of a framebuffer comes to is c46_large_violated: the offset is computed in 32 bits, and no such rectangle is ever encoded."
 },
 "C50": {
  "status": "partial",
  "note": "Whole cursor message, exact condition for staying inside the reserved memory. False in general: the mask overflows its buffer for widths that are no multiple of eight, and is missing for images without alpha (witnesses). For images of 16 bits with two rows or more no message can be made at all (`c50_16bit_violated`). Transformed cursors are C111."
 },
 "C41": {
  "status": "partial",
  "note": "Tiles of all sizes and contents decode with an RFC decoder to their pixels; not for formats whose compact pixels are not the RFC's (witness c41_tile_violated) nor tiles that overflow the palette (C43)."
 },
 "C42": {
  "status": "partial",
  "note": "The tiles are the RFC's and partition the rectangle; for all answers of zlib a finished frame is the rectangles of the damage with their tiles. Not for formats as in C41, palettes as in C43, failing allocations, framebuffers of 2 GB and more (c42_large_violated: damage far behind is never encoded), 4 GB of output."
 },
 "C43": {
  "status": "partial",
  "note": "Exact condition: the palette on the stack overflows iff compact pixels have four bytes and the tile has 13 to 16 colours (witness c43_tile_violated); otherwise nothing is written out of bounds."
 },
 "C64": {
  "status": "partial",
  "note": "Holds for the formats of CpixelOk; witness for others in c64_cpixel_violated."
 },
 "C44": {
  "status": "partial",
  "note": "Round trip for all lengths below 2^22 when three bytes are free. c44_room_violated and c45_room_violated: the encoder only makes sure of one byte."
 },
 "C45": {
  "status": "partial",
  "note": "For all sizes up to 32704, damage and schedules. c45_wide_violated: int16_t overflow beyond that; c45_room_violated: assertion failure."
 },
 "C65": {
  "status": "partial",
  "note": "c65_small_violated: fewer than 12 bytes are compressed nevertheless; c65_jpeg_violated: empty images; c65_tpixel_violated: wrong pixel size."
 },
 "C51": {
  "status": "partial",
  "note": "For all histories of frames of one size up to 32736 with damage inside. c51_wide_violated: the last tile column beyond that is ignored; c51_outside_violated: damage outside writes beyond the hashes; c51_first_violated: new tiles with the hash zero are not reported."
 },
 "C52": {
  "status": "partial",
  "note": "Holds for all transforms and all sizes below 32768. From 32768 columns on the matrix overflows, and damage is moved to where there are no pixels (c52_wide_violated)."
 },
 "C66": {
  "status": "partial",
  "note": "When each frame is finished before the next is fed. c66_order_violated and c66_overtaken_violated: otherwise an older frame may stay; c66_room_violated: damage is lost when memory runs out."
 },
 "C53": {
  "status": "partial",
  "theorems": [
   "Verif.Flow.c53_window",
   "Verif.Flow.c53_defined_partial",
   "Verif.Flow.c53_overflow_violated"
  ],
  "note": "The estimate after every sample fed is a function of the last 16 samples and the last minimum round-trip time (c53_window, for every history). That the sums fit in an int is only proved for tame samples; c53_overflow_violated is a history where they do not. Quotients are exact in the model where the code rounds a double."
 },
 "C59": {
  "status": "partial",
  "theorems": [
   "Verif.Flow.c59_min",
   "Verif.Flow.c59_defined_partial",
   "Verif.Flow.c59_wrap_violated",
   "Verif.Flow.c59_forged_violated"
  ],
  "note": "For every history that runs without signed overflow the minimum is that of the measurements; honest histories run without. The int32 clock overflows after 2^31 microseconds and with forged answers."
 },
 "C67": {
  "status": "partial",
  "theorems": [
   "Verif.Flow.c67_flow_partial",
   "Verif.Flow.c67_stall_violated",
   "Verif.Flow.c67_fast_violated"
  ],
  "note": "The count is right, and clients with nothing in flight are not held back, if the estimate and the limit fit in an int. When the first answer to a frame is the fastest so far the estimate is a division by zero, and the client is held back for ever."
 },
 "C58": {
  "status": "proved",
  "theorems": [
   "Verif.Rating.c58_range",
   "Verif.Rating.c58_deepest"
  ],
  "note": "For every population of clients, format, modifier below 2^64 and buffer type; ratings are exact fractions in the model where the code has doubles. The values of the modifiers are those of drm_fourcc.h, which is not part of the repository."
 },
 "C68": {
  "status": "partial",
  "theorems": [
   "Verif.Rating.c68_usable_partial",
   "Verif.Rating.c68_transform_violated",
   "Verif.Rating.c68_big_violated"
  ],
  "note": "Encoding and masks for all formats rated above 0; transforms only for those that pixman knows. The others are rated above 0 but abort in resample_now."
 },
 "C57": {
  "status": "partial",
  "theorems": [
   "Verif.H264.c57_rects_partial",
   "Verif.H264.c57_memory_violated",
   "Verif.H264.c57_pending_violated"
  ],
  "note": "For every history of an encoder while there is memory; libavcodec is a parameter. Without memory NULL is handed on, or a length wraps."
 },
 "C69": {
  "status": "partial",
  "theorems": [
   "Verif.H264.c69_reset_violated"
  ],
  "note": "Violated: OPEN_H264_FLAG_RESET_CONTEXT is the enumerator 0 used as a bit mask, so that the flags are always 0 (which c57_rects_partial states for all frames)."
 },
 "C70": {
  "status": "partial",
  "theorems": [
   "Verif.H264.c70_defined_partial",
   "Verif.H264.c70_key_violated",
   "Verif.H264.c70_empty_violated"
  ],
  "note": "Holds for all histories in which a codec could be created for the first frame and no framebuffer is empty. Otherwise a full update request dereferences NULL; an empty framebuffer fails an assertion, whatever came before."
 },
 "C71": {
  "status": "partial",
  "theorems": [
   "Verif.H264.c71_frames_partial",
   "Verif.H264.c71_stall_violated",
   "Verif.H264.c71_queue_violated"
  ],
  "note": "For all histories in which the server asks for one frame at a time and the codec gives data for each. An empty packet stalls the client; a queue is lost with its codec."
 },
 "C72": {
  "status": "proved",
  "theorems": [
   "Verif.H264.c72_codec"
  ],
  "note": "For every history."
 },
 "C73": {
  "status": "proved",
  "theorems": [
   "Verif.H264.c73_keys"
  ],
  "note": "For every history."
 },
 "C34": {
  "status": "proved",
  "theorems": [
   "Verif.RsaStream.c34_authentic"
  ],
  "note": "For every network input, segmentation and space; AES-EAX is a parameter with the properties of a stream cipher and a 16 byte code. That codes cannot be forged is an assumption of cryptography and not part of the model."
 },
 "C35": {
  "status": "partial",
  "theorems": [
   "Verif.RsaStream.c35_send",
   "Verif.RsaStream.c35_receive_partial",
   "Verif.RsaStream.c35_stuck_violated",
   "Verif.RsaStream.c35_long_violated",
   "Verif.RsaStream.c35_empty_violated",
   "Verif.RsaStream.c35_memory_violated"
  ],
  "note": "All that is sent is read by a peer that follows the protocol, while there is memory. Received are messages of 1 to 8174 bytes for which there is space; longer ones close the stream, those for which there is no space are never read, and empty ones hold up what follows."
 },
 "C36": {
  "status": "proved",
  "theorems": [
   "Verif.RsaStream.c36_nonces",
   "Verif.RsaStream.c35_send",
   "Verif.RsaStream.c34_authentic"
  ],
  "note": "Nonces are distinct within 2^128 messages of a direction; both ends number the messages alike, which is part of the other two theorems. That the keys of the two directions differ depends on the random numbers of the handshake."
 },
 "C74": {
  "status": "partial",
  "theorems": [
   "Verif.Keys.c74_login_partial",
   "Verif.Keys.c74_server_partial",
   "Verif.Keys.c74_any_client",
   "Verif.Keys.c74_server_violated"
  ],
  "note": "The code violates it: a server public key with a leading zero byte (one in 256) fails an assertion when the client chooses the security type. For all other secrets the credentials arrive. AES and MD5 are parameters."
 },
 "C75": {
  "status": "partial",
  "theorems": [
   "Verif.Keys.c75_challenge_partial",
   "Verif.Keys.c75_lost_bytes_partial",
   "Verif.Keys.c75_session_partial",
   "Verif.Keys.c75_challenge_violated",
   "Verif.Keys.c75_length_violated"
  ],
  "note": "The code violates it: a ciphertext with leading zero bytes is sent without its last bytes, and the transcript of a key whose length is not a multiple of 8 bits is not the one exchanged. Proved for all other cases. RSA and the hash functions are parameters."
 },
 "C76": {
  "status": "partial",
  "theorems": [
   "Verif.Keys.c76_defined_partial",
   "Verif.Keys.c76_stack_violated",
   "Verif.Keys.c76_assert_violated"
  ],
  "note": "The code violates it: keys longer than 1022 bytes overflow the stack; keys Nettle refuses or with an exponent longer than the modulus fail an assertion once the client's challenge decrypts. Proved for all other keys."
 },
 "C39": {
  "status": "proved",
  "theorems": [
   "Verif.Buffers.c39_buffers",
   "Verif.Buffers.c39_counted"
  ],
  "note": "c39_buffers: every sequence of calls in which only owned references are given back or passed on is free of use after free; a buffer lives exactly as long as it is owned, used or queued; freed once; callback right after the release ending the last hold and never otherwise; the pool lives exactly as long as it is owned or one of its buffers is out (or was given back without its reference). c39_counted: rcbuf, encoder and display counters."
 },
 "C40": {
  "status": "partial",
  "theorems": [
   "Verif.Buffers.c40_pool_partial",
   "Verif.Buffers.c40_twice_violated",
   "Verif.Buffers.c40_unfed_violated",
   "Verif.Buffers.c40_giveback_violated"
  ],
  "note": "Holds for applications that feed an acquired buffer once per acquisition. Violated when the same buffer is fed twice (display.c 38-45 releases before it holds): it is handed out while it is shown, and the pool is freed early; pool leaks when an acquired buffer is never fed or is given back with nvnc_fb_pool_release."
 },
 "C60": {
  "status": "partial",
  "note": "False in the code: any message of an unknown type, a handshake that fails on a bad response, and a framebuffer update after the display is gone, free the client inside its own handler and go on using it; a connection closed by the application while a close is already scheduled, and a last message still queued at hang-up, free it twice; and a ZRLE or Tight encoder that cannot be made is referenced all the same (witnesses, the first two for every client). Proved for clients that keep to the protocol, while there is memory for those encoders, for every history including hang-up, read errors and application close: no use after free, and the client goes live, closing, dead exactly once. Proved for every peer, also a hostile one: without those closes no client is destroyed twice and one whose stream is closed is destroyed at the next turn of the event loop."
 },
 "C77": {
  "status": "partial",
  "theorems": [],
  "note": "The code violates it: turning continuous updates off does not process pending requests, and a request for an area outside the continuous-updates rectangle is not answered. Proved for runs in which continuous updates are not turned off and nested reads find nothing."
 },
 "C78": {
  "status": "proved",
  "theorems": [],
  "note": "For all runs of the TLS stream model."
 },
 "C79": {
  "status": "partial",
  "theorems": [],
  "note": "The code violates it for what is left in the TCP queue at the upgrade and for data handed over during the handshake. Proved when nothing is handed over before the handshake is over."
 },
 "C80": {
  "status": "partial",
  "theorems": [],
  "note": "The code violates it for fatal send errors and for handshakes that fail after their first step. Proved for ends of stream and read errors, as long as neither of these occurs."
 },
 "C81": {
  "status": "partial",
  "theorems": [],
  "note": "Order and completeness are proved for all runs. That nothing waits is violated for records larger than the room left, and proved when records fit."
 },
 "C82": {
  "status": "partial",
  "theorems": [],
  "note": "The code violates it when the TCP queue is not empty at the upgrade. Proved when it is empty."
 },
 "C83": {
  "status": "partial",
  "theorems": [],
  "note": "The code violates it in three ways (read error on a socket that is also writable, full message buffer after a send, fence whose answer cannot be sent). Proved when events come one at a time, reads have room and the server reads only when told to."
 },
 "C84": {
  "status": "proved",
  "theorems": [],
  "note": "VIDIOC_QBUF succeeding and at most four planes are hypotheses of c84_no_crash only; the rest holds of every run that does not crash. How long destroy waits is up to the device (c84_destroy_waits)."
 },
 "C85": {
  "status": "partial",
  "theorems": [],
  "note": "Frames fed while the device reads three are dropped without any packet (c85_dropped_violated); otherwise they are given to the device in order. Key-frame requests are proved in full."
 },
 "C86": {
  "status": "proved",
  "theorems": [],
  "note": "Packets are identified by their time stamps; the device writes only into buffers it has."
 },
 "C87": {
  "status": "partial",
  "theorems": [],
  "note": "Violated: finished framebuffers are released only when another frame is fed or the encoder ends (c87_idle_violated); c87_next_feed_partial is what holds."
 },
 "C88": {
  "status": "partial",
  "theorems": [],
  "note": "Violated: more than 256 formats, more or fewer than three buffers, more than four planes; every chosen format has its bytes in reverse order, according to drm_fourcc.h and videodev2.h. The table for the bcm2835 driver is in C110."
 },
 "C89": {
  "status": "partial",
  "theorems": [],
  "note": "Violated by a client that connects before the application has fed a buffer: its descriptor is closed twice (c89_no_buffer_violated). Proved for runs in which the display has a buffer before anyone connects."
 },
 "C90": {
  "status": "partial",
  "theorems": [],
  "note": "Violated when listening on a bound Unix socket for the plain protocol fails: the file stays (c90_left_behind_violated). That the application's files stay and that the file exists while listening is proved for every run."
 },
 "C91": {
  "status": "partial",
  "theorems": [],
  "note": "Violated without a display (NULL dereference) and by clients of Unix sockets (uninitialised string is logged). Proved for runs with a display that has a buffer."
 },
 "C92": {
  "status": "partial",
  "theorems": [],
  "note": "Violated for sizes of 4 GiB and above (wraps), for 2^31 pixels and above (signed overflow), and for strides below the width. Proved otherwise."
 },
 "C93": {
  "status": "partial",
  "theorems": [],
  "note": "Freeing and the release callback are proved for every run. Mapping is violated by the hardware encoder, which unmaps under other users, and by two threads that map at once (leak, NULL); proved without these. nvnc_set_cursor releases before it holds."
 },
 "C94": {
  "status": "partial",
  "theorems": [],
  "note": "The 105 keys are proved to arrive as themselves. Violated: a code that the table does not have is passed on unchanged and is taken for another key (c94_ghosts_violated; c94_ghosts_partial: there are 14 of them). Codes beyond the table are C11."
 },
 "C95": {
  "status": "proved",
  "theorems": [],
  "note": "Levels of libav that are not one of its eight constants become TRACE."
 },
 "C96": {
  "status": "partial",
  "theorems": [],
  "note": "Violated for the empty text (pointer before the array) and for texts that begin or end with a byte between 128 and 254 (isspace of a negative char). c96_text holds for every text, c96_passed_on_partial for all others."
 },
 "C97": {
  "status": "partial",
  "theorems": [],
  "note": "End to end: an observer copies the picture into each frame handed to the encoder and paints it when the frame is sent. The code violates it: a frame thrown away after a change of encodings takes its damage along, as does a frame the encoder refuses. Proved for all runs in which no frame is lost; c97_kept: when nested reads find nothing, no frame is lost for clients that keep their pixel format and encodings while a frame is encoded, or that have fences, and c97_calm_partial is for them; c97_current_partial also uses C77 and needs its conditions."
 },
 "C98": {
  "status": "partial",
  "theorems": [],
  "note": "c98_session_partial: over all runs of the server, provided that frames and cursors are readable, that no client chose VMware's LED encoding alone, that frames have less than 65534 rectangles and that the client keeps its pixel format. c98_changes_partial: the same with changes of the pixel format, each part of the session read with the sizes of its format, if no frame is sent in an older format; c98_unfenced_partial: which holds of clients that do not ask for fences and whose encoder is never handed two frames at once. The other c98 theorems show readability of what each encoder writes. Messages of the handshake: C115. Violated: LED rectangles have QEMU's number (c98_session_violated), small Tight rectangles are compressed (c98_tight_violated), a cursor without alpha has no mask (c98_cursor_violated)."
 },
 "C99": {
  "status": "partial",
  "theorems": [],
  "note": "c99_decoded_partial: what the client decodes from the bytes is what the observer of C97 sees, over all runs, provided that every frame draws the region and picture handed to the encoder (Faithful; the decoder may depend on all that the same encoder made before), that everything sent is readable (C98), that no frame was lost, and that the client keeps its pixel format. c99_shown_partial adds C97. c99_formats_partial and c99_formats_shown_partial: the same for clients that change their pixel format, each part of the session read and decoded in the format of its time, if no frame is sent in an older one (C98); c99_formats_calm_partial: which holds of clients that lose no frame by C97 and do not ask for fences. c99_session_partial derives Faithful from the encoders themselves: for any mixture of frames from the modelled raw, ZRLE and Tight encoders (each with its own zlib streams, kept over the connection) a client that inflates and decodes them sees the application's colours at its own precision. Law used about zlib: what was put in before a completed flush is what the client's zlib gets out of the bytes so far. c99_calm_partial: the same for clients of which C97 shows that no frame is lost, whenever they wait for an update and the server is not busy. c99_raw_partial, c99_zrle_partial, c99_tight_partial: single frames. Missing: the formats, palettes and small tiles for which C41, C43, C64 and C65 fail, JPEG and H.264, several framebuffers in a frame."
 },
 "C100": {
  "status": "partial",
  "theorems": [],
  "note": "c100_one_stream and c100_unbroken: over all runs, one encoder for all frames in ZRLE and one for all in Tight, and no other encoder comes between frames of one. c100_complete_partial: as long as no frame was lost, the rectangles that the client has in ZRLE or Tight are exactly those its encoder has made; c100_calm_partial: for the clients that lose no frame by C97. Violated: a frame that is dropped because the formats changed has already gone through the compressor (c100_gap_violated)."
 },
 "C101": {
  "status": "partial",
  "note": "c101_isolated_partial: for every set of clients, two histories that differ only in the events of those clients leave all others in the same state with the same log, once the list of security types is fixed, if none of them asks for exclusive access (C06) and the clipboard is set only while some client outside the set supports the extended clipboard. Without the last two conditions it is false in the code (c101_clipboard_violated, c101_sectypes_violated). Both histories must reach no undefined behaviour. Sharing of processor time, memory and encoder threads between clients is not modelled."
 },
 "C102": {
  "status": "partial",
  "note": "False in the code: requiring encryption without authentication offers \"none\" and gives a session in the clear, and clipboard texts go to connections that are not encrypted yet (witnesses). Proved for servers that require both from the start: credentials are only looked at, and anything of a session only happens, after the upgrade, and what is written in the clear is handshake messages and clipboard texts only."
 },
 "C103": {
  "status": "proved",
  "note": "For clients that wait for each answer before they send the next message. The run either goes as stated or was spoiled by others: undefined behaviour or an abort in an operation of another client or of the application, or another client asking for exclusive access. That what is encrypted decrypts to what was meant, that hashes agree and that TLS can be started are hypotheses on the environment."
 },
 "C104": {
  "status": "partial",
  "note": "Proved: nothing before the request is complete; then the reply and whole frames, those of the user in order; with idle callbacks and whole pings the client's reader gets exactly what was sent; input behind the request is delivered as C30 says. False (witnesses): callbacks that send while a header is written, functions retried on a full socket (c104_full_socket_violated: in every state of an open stream), pings in pieces, requests cut behind the key."
 },
 "C105": {
  "status": "partial",
  "note": "Proved for all interleavings: safe, each frame once and in order, everything given back, the end is reached. Missing, with witnesses: Tight's time of frames given while another is handed over, workers that start only in part, Tight's last work failing, a failed resize, framebuffers that cannot be mapped."
 },
 "C106": {
  "status": "partial",
  "note": "c106_formats_partial: over all runs of a server, for clients whose encoder is never handed a frame while it has another one (Single); c106_single: which is so whenever nested reads find nothing. Each frame that is sent is judged by the frames that were with the encoder when it was finished. Missing: with two frames at the encoder the one from before a change of the format may be sent (witness c106_stale_violated)."
 },
 "C107": {
  "status": "partial",
  "note": "Lifetimes, freeing once, clean-up and the end are proved for all histories of an application that is careful (no feeding after nvnc_del; a display goes after jobs and the framebuffers fed to it with a transform; the server goes after jobs); freeing once and clean-up for all histories. Missing: without such care the code uses freed displays, resamplers and servers, attaches its own record to the application's framebuffer, and leaks it (all with witnesses)."
 },
 "C108": {
  "status": "partial",
  "note": "Proved without exceptions for buffers from memory, Raw, ZRLE, framebuffers, resamplers, displays, TCP streams, RSA-AES upgrades and TLS credentials; for Tight, string buffers, WebSocket and TLS streams, both H.264 encoders, resampler_feed and the loading of RSA keys as long as the calls named in the theorems work. Missing: when one of those fails the code leaks, gives back twice, or uses NULL or memory never written (all with witnesses)."
 },
 "C109": {
  "status": "partial",
  "note": "Proved: every key in every split into lines is imported as it is, whatever follows; memory safety and what exactly is imported, for every file; other kinds are refused. Missing, because the code does otherwise: files with Windows line ends are refused for every key, and files without an END line or cut off within the text are not refused here (witnesses). What nettle does with the decoded bytes is not modelled."
 },
 "C110": {
  "status": "partial",
  "note": "Proved: which device is chosen, for all directories in which no device has a step of zero; the formats and sizes it is set to, and exactly when there is an encoder, for drivers that do what they are asked for or fail, other than bcm2835; planes of framebuffers whose height is a multiple of 16. Missing, because the code does otherwise (witnesses): a step of zero is divided by; the padded size and the steps are not compared with what the device has; other devices are not tried; what the driver answers is not looked at; on bcm2835 formats are not compared with what is there; with any other height the device is told of rows that do not exist."
 },
 "C111": {
  "status": "partial",
  "note": "Proved: pixels, mask and size for whole images of 32 bits with alpha and all transforms, wherever C50 holds; the hotspot for the two transforms for which it is right; references. Missing, because the code does otherwise (witnesses): the hotspot with the other six transforms, parts of images, images of 16 bits (memory written out of bounds for every one of three pixels or more), references if the image cannot be mapped."
 },
 "C112": {
  "status": "partial",
  "note": "Encodings: whole statement. Formats: all with four components but RGBX1010102, which the log calls UNKNOWN because the table has a green shift of 10 and not 12 (`c112_formats_violated`); shifts of RGB332 and BGR233 have one name. The source says of this function that it is not exact."
 },
 "C113": {
  "status": "partial",
  "note": "The answer is proved for every request. The numbers for clocks within 2^30 µs (18 minutes) of each other modulo 2^32; for honest clients whose clocks differ by more the code has a signed overflow (`c113_statistics_violated`, for all of them), and a client whose clock reads 0 gets a second answer (`c113_zero_violated`)."
 },
 "C114": {
  "status": "partial",
  "note": "Proved if no closing of a client is due or in a queue, and nobody connects meanwhile: each client is freed once and in order, waits are positive and end. False otherwise: clients who have hung up a moment ago are used after they were freed (`c114_hungup_violated`, always when no encoder is at work; `c114_deferred_violated`), and a connection uses the display, which is gone (`c114_connection_violated`)."
 },
 "C115": {
  "status": "partial",
  "note": "c115_connection_partial: over all runs of the server, provided that the session is readable (C98), that keys and random numbers of the crypto libraries have the lengths that they say, and that nothing but the handshake is sent before ServerInit. That the type by which the stream is read is the one that the client chose is shown only as far as it is one of those offered. c115_tcp_partial, c115_tls, c115_ws_partial, c115_rsa: what arrives through each transport is heard as this. Violated: clipboard text that the application sets during a handshake makes the rest unreadable (c115_clipboard_violated)."
 },
 "C116": {
  "status": "partial",
  "note": "c116_refused_partial: over all runs of the server, for every refusal but that of the VeNCrypt version, if keys and random numbers of the crypto libraries have the lengths that they say and nothing but the handshake is sent before. Violated: another version of VeNCrypt is answered by a SecurityResult whose first byte accepts it (c116_vencrypt_violated)."
 },
 "C117": {
  "status": "partial",
  "note": "Nothing is cleaned up twice, what is not replaced is cleaned up exactly once, and callbacks caused by clients are shown only data that have not been cleaned up. The functions of nvnc_set_client_cleanup_fn are shown data that have just been cleaned up: those of the client always, those of the server when it is deleted. Data that are replaced are never cleaned up."
 },
 "C118": {
  "status": "partial",
  "note": "A frame is held back exactly if the data in flight is more than the link delivers in the shortest round trip (c118_limit_partial, c118_round_trip_partial), if the estimate and the limit fit in an int. The 33 ms beyond it are added to a number of bytes, not to the time, and count for nothing (witness c118_delay_violated)."
 },
 "C119": {
  "status": "partial",
  "note": "c119_image_partial: a frame depends on libjpeg only through calls that show it a tile of the framebuffer with the right size and the right colours, with quality 1 to 100 in steps of 11. Formats whose colours do not have eight bits are C65 (an image of no bytes is sent). Violated: c119_chroma_violated: whatever the level, libjpeg is never asked for full colour resolution, because the quality, which is 11 * level + 1, is compared with 9."
 },
 "C120": {
  "status": "partial",
  "note": "Holds for applications that do not close a client in its own callbacks or while it is being closed, and close nobody while a client drives out the others (c120_callbacks_partial, c120_exclusive, c120_walk). Closing a client in one of its own callbacks is always undefined (c120_self_violated), so is closing it again when told of its end (c120_again_violated), closing the client next in the list while disconnect_all_other_clients is under way (c120_next_violated), and nvnc_client_next after closing (c120_walk_violated)."
 },
 "C121": {
  "status": "partial",
  "note": "Proved for all histories in which every file is good (c121_shown_partial) and for all handshakes during which the key is not set (c121_handshake_partial); certificates in full (c121_tls). A call of nvnc_set_rsa_creds that fails takes the old key away and leaves an unusable one, which is shown to every client (c121_failed_violated); a key set during a handshake is used for what was encrypted for the old one (c121_changed_violated)."
 },
 "C122": {
  "status": "partial",
  "note": "Proved for all sequences: sizes, formats, places of all bytes (c122_told), no crash with at most four planes (c122_no_crash). The size of the memory includes planes that begin where the memory does (c122_extent_partial); a plane that begins further on is never within it (c122_extent_violated). A descriptor that could not be made is passed on (c122_descriptor_violated). The picture formats of FFmpeg are taken from its documentation."
 },
 "C123": {
  "status": "partial",
  "note": "Proved for messages that hold all bytes they announce, and for those that cannot be decompressed. False for every message that holds fewer: the buffer is read where nothing was written (c123_short_violated, c123_length_violated)."
 },
 "C124": {
  "status": "partial",
  "note": "Proved over all runs, except for levels behind 32 supported encodings, which the server ignores (C12)."
 },
 "C125": {
  "status": "partial",
  "note": "Proved over all runs, for open connections, for fences, continuous updates and the clipboard; the announcement is right and comes at most once, and answers a first request. False for clients that name the QEMU key event or the clocks after their first request: they are never told (c125_late_violated)."
 },
 "C126": {
  "status": "proved",
  "note": "Proved over all runs; clients that cannot be told a size are C60. Frames without width and without height are an exception, which no framebuffer has."
 },
 "C127": {
  "status": "proved",
  "note": "The record notes the encodings that the server took note of: the first 32 that it knows; -1000 is among those that it knows only in builds with experimental features."
 },
 "C128": {
  "status": "partial",
  "note": "Cursors go to the clients that want them, and not more often than they are set. A request is used up by a cursor that cannot be encoded (c128_unencoded_violated)."
 },
 "C129": {
  "status": "partial",
  "note": "Clients that named only the VMware encoding of LED states get a message they cannot read (C55)."
 }
}
