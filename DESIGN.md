# Formal model of neatvnc: design

Everything is in Lean 4 (4.33.0). The model lives in `lean/Verif/**`. It is a hand translation of
the C sources read as text; the code was neither built nor run.

## Layout

Each subsystem `X` has
* `Verif/Model/X.lean`: executable definitions; each cites file and lines of `/repo`,
* `Verif/Spec/X.lean`: what the theorems compare the model with (decoders of the protocol,
  abstract machines, conditions on histories), written without the model's helpers,
* `Verif/Lemmas/X.lean`: helper lemmas and invariants (only where there are many),
* `Verif/Props/X.lean`: the property theorems (`cNN_...` belongs to property CNN), each followed by
  an `example` that instantiates its hypotheses.

`tools/manifest.py` makes `MANIFEST.json` from the theorem names and `tools/claims.json`.
`tools/mutate.py` makes the mutation tests recorded in `seeded/LOG.jsonl`.

## Conventions

* `Outcome α` is `ok | ub | abort`. Undefined behaviour (out of bounds, use after free, signed
  overflow, shifts, division by zero) is `ub`, a failed `assert` or `abort` is `abort`. Neither is
  totalised away.
* Theorems whose name ends in `_partial` prove less than the property; what is missing is said next
  to them. Where the code violates a property, a theorem named `..._violated` proves the negation,
  with a witness or for all states of a kind, and the `_partial` theorem states the largest fragment
  we know to be true.
* External code (zlib, pixman, nettle, GMP, gnutls, libturbojpeg, libavcodec, the kernel, the
  application) is a parameter of the model; what is assumed of it is a hypothesis of the theorem.
* `decide` is only used on witnesses and examples. No `native_decide`, no `bv_decide`, no axioms.

## Method

| Properties | Model | Method |
|---|---|---|
| C01-C06 | Server, System: handshake over a byte stream (server.c 236-502, auth/*.c); crypto and verdicts are parameters | every event is a sequence of micro steps (`Lemmas/ServerMicro`); invariants over all runs of any number of clients |
| C07-C09, C14 | Server: receive loop `on_client_event` and all message parsers | each message processed alike wherever the bytes are cut (`Lemmas/Segmentation`), induction over segmentations |
| C10-C19, C48, C62 | message handlers as functions from bytes to effects | comparison with an independent encoder of messages; decision tables |
| C20-C25, C56, C63 | update flow (requests, damage, frame under way, fences, encoders) | invariants by induction over events |
| C60 | the same, with closing | refinement of the machine live, closing, dead; invariant for arbitrary peers |
| C26-C28 | Tcp: send queue with arbitrary kernel answers and re-entrant callbacks | refinement of a byte queue |
| C29-C33, C61 | Ws, Http | round trip, byte-wise RFC 6455 decoder, grammar of requests |
| C34-C36 | RsaStream: framing, nonce counter | stream-decoder induction, arithmetic |
| C37, C38 | Base64, Vec | round trip, refinement of lists |
| C39, C40 | Buffers: counts, holds, pool | ownership accounting invariant |
| C41-C43, C64 | Zrle | round trip through an RFC 6143 decoder, partition into tiles, exact condition for overflow |
| C44, C45, C65, C119 | Tight with any schedule of the four workers | round trip, partition, interleaving invariant |
| C46-C50 | Pixels, Raw, Cursor | bit-level specification of each format |
| C51, C52, C66 | Display | set-level specification, bijections |
| C53, C59, C67, C118 | Flow | the last 16 samples as a function of the history; fractions for doubles |
| C54, C55 | Server, System | assorted |
| C57, C69-C73 | H264 | histories of encoder events with jobs in flight |
| C58, C68 | Rating | order properties for every population of clients |
| C77 | Server | whole calls of the update flow, when nested reads find nothing |
| C97 | Server | observer of the log that copies the application's picture into frames and paints them; invariant of all micro steps for each pixel, then C77; a second invariant shows who loses no frames |
| C98 | Server, encoders | a client's reader of the whole byte stream (`Spec/Wire`), written from RFC 6143 and the extensions; every micro step adds whole messages; sessions are cut where the pixel format changes (`Spec/Changes`) |
| C99 | Server, Raw, ZRLE, Tight | C98's reader with decoders (`Spec/Decode`) drawing into a canvas, step by step beside C97's observer, also over changes of the pixel format (`Spec/Repaint`); C42, C46 and C65 for the encoders; invariant that rectangles made and compressor output agree |
| C100 | Server | the encoder of every frame in the log; invariant of all micro steps for the encoders that are kept |
| C101 | System | two runs side by side: no event of a client looks at the shared counter (`Lemmas/Isolation`), and nothing else that is shared is written once the security types are fixed |
| C102 | System | invariant over runs: which phases come after the upgrade, and over which channel each message of the handshake is answered (`Lemmas/Secrecy`) |
| C103 | System | a path through the handshake, message by message; every piece of a message but the last changes nothing but the buffer, and nothing others do changes what the path rests on (`Lemmas/Honest`, `Lemmas/Answers`) |
| C104 | WsStream: Ws, Http and Tcp as one stream | C26's queue with a list of frames beside it, invariant over all runs; a client's frame reader from RFC 6455; C30, C32 and C61 for the input |
| C105 | EncWork: Raw, ZRLE and Tight encoders, their works and framebuffers | invariant over all interleavings of client, threads and main loop, with what a running callback still owes as a parameter; a measure for the end |
| C106 | Server: pixel formats and encodings of frames | invariant over all runs that ties the client's fields, the frame at work and the flag for changes to what the log says the client asked for; the log entry `Eff.pixFmt` is a ghost of the model |
| C107 | Displays: framebuffers, displays, resamplers' records, the server | books of the application beside the library; invariant over all histories that ties every count to the books, with what is owed in the middle of a call as a parameter |
| C108 | Make: constructors and destructors over a ledger of things | a triple with a frame (what a program owns beside what it leaves alone), rules for each call, induction for loops; which calls fail is an arbitrary function |
| C109 | Pem: loading the RSA key's file | induction over the lines of the file; base64 by C37 |
| C110 | Device: finding a V4L2 encoder and setting its formats | induction over directory and sizes against what a device can do; witnesses for drivers that answer otherwise |
| C111 | Turned: cursors with a transform | composition of C50 (what is sent of an image) and C52 (where the transform puts pixels) |
| C112 | Labels: names in the log | induction over the list with what the buffer holds so far; tables for all numbers |
| C113 | Ntp: comparing clocks | arithmetic modulo 2^32 for all readings |
| C114 | Shutdown: `nvnc_del` with clients | induction over the script of the main loop, for waiting and for nested closing |
| C115 | Server, Tcp, Tls, WsStream, RsaStream | a client's reader from the first byte on (`Spec/Talk`), which leaves for later what is not there in full; invariant that the messages before ServerInit lie on one of the paths of the handshake; composed with C26, C78, C104 and C35 |
| C116 | Server | a client's reader of refusals (`Spec/Refuse`); C115's paths with what may be sent where they end |
| C117 | Userdata: attached data and their clean-up functions | invariant that data held and data cleaned up are all different, for all orders of calls |
| C120 | Callbacks: nvnc_client_close called back from callbacks, the list of clients | induction over what the application does, nested to any depth, and over histories |
| C121 | Creds: the server's RSA key and certificate while clients are in their handshakes | invariant over all histories of calls and messages |
| C122 | AvFrame: what FFmpeg is told about framebuffers | invariant over all sequences of frames that ties the encoder to the size and format that were noted |
| C123 | ClipText: what the application gets of compressed texts | for all decompressed contents and announced lengths, on top of the Server model |
| C124 | Level: the quality of frames | invariants over all runs: what a log since some point says about the quality, on top of C12 |
| C125 | Extensions: what clients are told about extensions | invariants over all runs: what a log says behind each list of encodings, and for one request on top of the Server model |
| C126 | Sizes: what clients know of the size | invariant over all runs that connects the size in the client object with an observer of the record |
| C127 | Times: the times of frames | invariant over all runs: what is in front of a frame and behind a time |
| C128 | Pointers: cursors of clients | invariant over all runs that connects sequence numbers with the record; what is done for each client when a cursor is set |
| C129 | Leds: states of the LEDs reach clients | the invariant of C55 connects the fields with the record; what is done about requests in such states |
| C78-C83 | Tls: stream with arbitrary answers of GnuTLS, re-entrant callbacks and events | invariants over all runs |
| C84-C88 | V4l2: encoder and device, which completes buffers in any order | invariant over all runs |
| C89-C91 | Listen: sockets, files and clients with arbitrary failures | invariant over all runs |
| C92, C93 | Fb: size of new buffers; users of one buffer, in threads or not | arithmetic; invariant over all runs |
| C94 | Server: the table of keys | the whole table, against a list of keys |
| C95, C96 | Log | settings as function of the history; specification of stripping |
| C74-C76 | Keys | number theory of the exchange, transcripts |

## Trusted base

* Lean's kernel. Every theorem depends on at most `propext`, `Classical.choice` and `Quot.sound`
  (`#print axioms`, and vcheck replays all modules). Mathlib is not imported.
* The reading of the C code into the model: that the definitions in `Verif/Model` do what the cited
  lines do.
* The specifications in `Verif/Spec` and the statements in `Verif/Props`.

## What is modelled

| Module | Code |
|---|---|
| Server | src/server.c: handshake, all client messages, fences, update flow, clipboard, closing; src/auth/*.c |
| System | src/server.c: any number of clients, API calls that reach them, `disconnect_all_other_clients` |
| Tcp | src/stream/tcp.c, src/stream/common.c: send queue, flush, close |
| Tls | src/stream/gnutls.c: upgrade, handshake, send queue, reading, closing |
| V4l2 | src/enc/h264/v4l2m2m-impl.c: source and destination buffers, feeding, tearing down, choice of format |
| Listen | src/server.c 1997-2417: listening sockets, accepting connections, `nvnc_del` |
| Fb | src/fb.c: allocation, references, holds, mapping |
| Log | src/logging.c |
| Ws, Http | src/stream/ws/framing.c, ws.c (reader and writer), http.c, handshake.c |
| WsStream | src/stream/ws/ws.c: the whole stream, on top of src/stream/tcp.c |
| EncWork | src/enc/raw.c, zrle.c, tight.c, interface.c: jobs, references, framebuffers held |
| RsaStream | src/stream/rsa-aes.c, EAX ciphers of src/crypto/nettle/cipher.c |
| Keys | src/crypto/nettle/key.c, rsa.c, `crypto_hash_many`, src/auth/apple-dh.c, rsa-aes.c |
| Base64, Vec | src/base64.c, src/vec.c |
| Buffers | src/fb.c, src/fb_pool.c, src/rcbuf.c, counters of encoders and displays |
| Pixels, Rating | src/pixels.c (formats, conversion, colour map, alpha, ratings), `calc_bytes_per_cpixel` |
| Raw, Zrle, Tight | src/enc/raw.c, zrle.c, tight.c, util.c |
| H264 | src/enc/h264/open-h264.c, encoder.c, ffmpeg-impl.c (queue and worker) |
| Cursor | src/cursor.c, `send_cursor_update` |
| Displays | src/display.c, src/fb.c, src/resampler.c: lifetimes; nvnc_add_display, nvnc_remove_display, nvnc_del of src/server.c |
| Make | constructors, destructors and error paths of src/rcbuf.c, enc/raw.c, enc/zrle.c, enc/tight.c, display.c, damage-refinery.c, resampler.c, fb.c, stream/*.c, crypto/nettle/rsa.c, enc/h264/*.c; `nvnc_set_tls_creds` |
| Pem | src/crypto/nettle/rsa.c `crypto_rsa_priv_key_load` over the bytes of the file |
| Device | src/enc/h264/v4l2m2m-impl.c 196-277, 484-499, 541-670: devices are what they answer |
| Turned | src/cursor.c `apply_transform` and the rest for images with a transform, with references |
| Labels | src/server.c `encoding_to_string`, `encodings_to_string_list` (with `snprintf` as writing of a text and a zero), src/pixels.c `rfb_pixfmt_to_string` |
| Ntp | src/server.c `update_ntp_stats`, `on_ntp_msg_send`, `on_client_ntp` |
| Shutdown | src/server.c `nvnc_del` (clients and display), `client_close`, `client_drain_encoder`, `defer_client_close`, `close_after_write`, with the main loop inside |
| Userdata | src/server.c `nvnc_set_userdata`, `nvnc_get_userdata`, the calls of clean-up functions in `client_close` and `nvnc_del` |
| Callbacks | src/server.c `client_close`, `nvnc_client_close`, `nvnc_client_first`, `nvnc_client_next`, `disconnect_all_other_clients`, the use of the client around callbacks in `on_client_event` and `on_init_message` |
| Creds | src/server.c `nvnc_set_rsa_creds`, `nvnc_set_tls_creds`; which key src/auth/rsa-aes.c uses when |
| AvFrame | src/enc/h264/ffmpeg-impl.c `drm_to_av_pixel_format`, `fb_to_avframe`; when src/enc/h264/open-h264.c makes another encoder |
| Layout | src/desktop-layout.c, and what src/server.c `check_desktop_layout` gives to the application |
| Display | src/display.c, src/resampler.c, src/damage-refinery.c, src/transform-util.c |
| Flow | src/bandwidth.c, RTT and in-flight accounting of src/server.c |

## What is not modelled

General
* Log messages in the other modules; allocation failure except where a module says so; integer overflow of reference counts.
* Threads, other than as arbitrary orders of completion.
* Rounding of doubles: ratings and bandwidth estimates are exact fractions.  The colour map is computed with the rounding of IEEE 754.
* GnuTLS, zlib, nettle, GMP, pixman, XXH3, libturbojpeg, libavcodec, the kernel: parameters. Of zlib the decoding
  theorems (C99) assume `Zlibs.Right`: at each completed flush the client's zlib gets out of the compressed bytes
  so far what was put in so far.

Per module
* Server: one event sees a fixed `Env` (clock, zlib, verdicts of the application). Callbacks of the
  application do not call the library. A write error does not close the stream in the middle of an
  event, except for the last message of a failed handshake (`Env.lastWrite`). WebSocket streams answer
  reads like plain ones. Regions are lists of rectangles with unbounded coordinates. An RSA key that
  Nettle refuses aborts in the code (C76); in `onRsaChallenge` the challenge just does not decrypt.
* System: a connection without a display is refused (the code dereferences NULL); `nvnc_del` is
  in Listen and Shutdown only; `disconnect_all_other_clients` acts at the end of the event instead of in the middle.
  Theorems about System and about runs of Server speak of runs that end `.ok`, unless they say that
  a run does.
* Tls: bytes above TLS; what GnuTLS does is stated at `recordSend` and `read`: a repeated call needs the same data,
  no data goes out during the handshake, a read without room is refused without touching the socket. Functions
  queued by `stream_exec_and_send` run at once. In Server a TLS stream is a stream like any other.
* V4l2: the controls of a device, the sizes and the content of packets; mapping of framebuffers. The device finishes only buffers that it was given. Failed calls of the device are
  not modelled, other than `VIDIOC_QBUF` of a frame.
* Listen: paths and addresses are numbers; what is done with a client between accepting it and its end is Server.
* Fb: one buffer; users take a reference and a hold together and give them back together, as all callers do; a mapping
  is a number; GBM gives a mapping or none. The stride that GBM reports and reference counts above 2^31 are not modelled.
* Log: formatting, the default logger's output; vsnprintf does not fail.
* Displays: pixels, damage and pools (that is Display and Pool); the resampler's own buffers are `none`; one server.
* Userdata: clean-up functions do not call the library; the application does not use clients that are gone.
* Creds: that making a key fails; the key of a file that is bad only half way through counts as unusable.
* Callbacks: of the library, only which clients it uses before and after it calls the application; the application does
  with clients what it likes, but does not delete the server in a callback.
* Device: the kernel; a device answers the same each time
* Pem: what nettle makes of the decoded key; errors while reading a file count as its end, as in the code
* Make: what memory holds; that a library's call makes one thing or none and its counterpart gives that back is taken
  from the libraries' manuals; a V4L2 driver gives the three buffers that it is asked for.
* EncWork: what is encoded (that is Raw, Zrle, Tight); a step of a thread or callback is not interrupted; the client's
  two references to an encoder count as one; the aml reference counts of Tight's four workers; a Raw encoder that is
  freed with a work (unreachable) is taken for undefined.
* Ws: a NUL terminated string is the bytes before the NUL. WsStream: completion callbacks send and close, but do not
  queue functions; the stream stays corked until the handshake is done.
* RsaStream: reading 0 bytes returns 0. What happens below is Model/Tcp.
* Keys: arithmetic of GMP is that of `Nat`; `mpz` functions on zeroed memory are accepted.
* Buffers: one pool, main-memory buffers, queue items can be allocated.
* Pixels, Raw, Cursor, Zrle, Tight, Display: little endian host, mapped buffers, strides not negative.
* Rating: the values of drm_fourcc.h are copied by hand, they are not part of the repository.

## Where the code disagrees with the properties

Each of these is proved about the model (`..._violated`) unless it is marked (read), in which case it was seen
while reading and not modelled.

Handshake and closing
* The security list is made at the first version message and kept: requiring authentication later
  does not reach new clients (C01, C03, C101). REQUIRE_ENCRYPTION without REQUIRE_AUTH offers "none" (C102).
* Bytes behind the VeNCrypt or RSA-AES upgrade message are interpreted inside the session (C05).
* `nvnc_client_close` inside a handler frees the client that the callers go on using: unknown message
  type, over-long cut text, failed upgrade or challenge, update of a client that cannot resize (C14,
  C60).
* A deferred close plus another close destroys the client twice: last message refused with EPIPE,
  last message queued and then hang-up, error or application close; application close after hang-up
  (C60).
* A ZRLE or Tight encoder that cannot be made is referenced before it is looked at (C60).
* `security_handshake_ok` etc. print a NULL user name with "%s" (read).

Messages
* `on_client_fence` uses `sizeof(msg)` of a pointer: a fence cut after 8 bytes reads past the buffer
  (C07, C08). A fence response shorter than 8 bytes reads what follows it as a time and a size (C07).
* An incremental request during continuous updates, a fence request while updates are pending, and
  SetEncodings with 1024 or more entries are never consumed (C09).
* QEMU key codes of 254 or more index past the table (C11).
* A quality level behind 32 encodings is ignored (C12, C124).
* Whether a client knows the QEMU key event or the clock extension is looked at once, when its first request for an update
  is processed. A client that names them later is never told that the server knows them (C125).
* Extended clipboard: |length| of 1 to 3 reads past the message (C18); the length announced in a provide
  message leaves out the terminator (C17). Clients in the handshake are sent the clipboard, in the clear (C62, C102).
* A provide message that holds fewer bytes than it announces makes the server read memory that was never written, and
  may hand it to the application (C123).
* A text set by the application is kept for later requests only if some client supports the extended clipboard at that
  time, so what one client gets depends on another (C101).
* Pixel formats of clients are not validated (C48).

Updates and fences
* The answer to a pending fence reads further messages in the middle of an update: unsolicited updates,
  two frames at once (C22, C23), of which the one in a pixel format from before may be sent (C106), failed
  assertions (C21). A second fence replaces the first (C20).
  Messages held back by a fence are not resumed until more data arrives (C09).
* A fence that arrives while a frame is being written is not answered when the write completes, but with a later update
  (C20). If it also holds the client back, the client can never ask for that update: none of its messages is handled
  any more (C09).
* A refused or dropped frame loses its damage (C24, C63), and the client keeps an old picture (C97). What it put into
  the zlib streams of ZRLE or Tight never reaches the client, whose decompressor is out of step from then on (C100).
* Turning continuous updates off does not process pending requests, and a request outside the rectangle of the
  continuous updates is not answered (C77).
* A cursor that cannot be encoded uses up a request although nothing is sent; the client waits for ever (C128).
* Rectangle counts are truncated to 16 bits (C56). The LED rectangle always has QEMU's number (C55),
  so a client that knows only VMware's cannot read on (C98).
* Tight fails an assertion for an update without damage inside the framebuffer (C21).

Streams
* A write that ends at a request boundary is not resumed, nor is one that leaves more than 1024 messages' rest, fails with
  an error other than EAGAIN or EPIPE, or whose completion callbacks send something (C28); re-entrant close in a
  completion callback (C27).
* TLS: a send that fails for good or a handshake that fails after its first step is not reported, the client stays for
  ever (C80). What is left of the TCP queue at the upgrade goes out inside TLS, and only after another send (C79,
  C82). The part of a record that does not fit into the message buffer waits for the next record (C81). A failed read
  of a socket that is also writable uses the stream after it was freed, a full message buffer fails an assertion, a
  fence whose answer cannot be sent reads from a NULL session (C83).
* WebSocket: mask phase restarts with each fragment, split headers, interleaved control frames (C30);
  masked pings (C31); masked headers are written wrongly (C29); header array overflow, truncated requests
  (C32); white space in a value loops for ever (C33); "char" instead of "chat" (C61). A completion callback that sends
  while a frame's header is written puts its message between header and payload; a function's message that does not fit
  into the socket is used after it was freed; pings in pieces are answered with old bytes of the buffer and break the
  stream; a request cut behind its key is answered at once and its end is taken for a frame (C104).
* RSA-AES: messages longer than 8174 bytes close the stream, empty ones and those without space hold it up
  (C35).
* Keys: a public key with a leading zero byte fails an assertion (C74); ciphertexts with leading zero
  bytes lose their end, key lengths that are no multiple of 8 give different transcripts (C75); keys above
  1022 bytes overflow the stack, keys that Nettle refuses fail an assertion (C76). `crypto_hash_many` stops
  at the first empty entry; error paths of the PEM loader leak (read).

Hardware encoder
* A frame fed while the device reads three is dropped and nothing is ever sent for it: the client waits for ever (C85).
  Finished framebuffers are not released before the next frame (C87). A driver that grants more or fewer than three
  buffers or has more than 256 formats makes the encoder overflow an array or fail an assertion; every pixel format chosen
  for the device has the wrong byte order (C88). Errors while setting up leak mappings; a device that never finishes makes
  the destruction loop for ever (read).

The handshake
* `nvnc_send_cut_text` sends to clients that have not finished the handshake, whatever security type they chose; the rest
  of the connection cannot be read (C115).
* A client with another version of VeNCrypt gets a SecurityResult where the byte is due that accepts or refuses the
  version; the first byte of it says accepted (C116).

The end of the server
* `nvnc_del` does not stop closings that are due (hang-ups just noticed, last messages in queues): the clients are used
  after they were freed, at the latest when the main loop is freed. While it waits for an encoder connections are
  accepted and use the display that it has just given up (C114).
* `nvnc_set_rsa_creds` deletes the old key before it reads the new one, and keeps empty structures if it cannot: from then
  on clients are shown a key of no bits, and no key is generated (C121, `c121_failed_violated`). Set during a handshake, the
  new key is used to decrypt what the client encrypted for the old one, and the client is closed, with what that means
  inside a handler (`c121_changed_violated`).
* An application that calls `nvnc_client_close` for a client in one of that client's callbacks (a key, the pointer, a request
  for credentials, the function for new clients) makes the library go on with freed memory, always (C120,
  `c120_self_violated`): the call frees at once, it is not put off. So does calling it for a client whose end it is being
  told of (`c120_again_violated`), and, while a client that wants the server for itself drives out the others, for the one
  next in the list (`c120_next_violated`).
* `client_close` cleans the data of the client up before it calls the function of `nvnc_set_client_cleanup_fn`, to which
  `nvnc_get_userdata` then gives those data; `nvnc_del` does the same with the data of the server. Data that are replaced
  are never cleaned up (C117).

Listening
* A client that connects before a buffer was fed has its descriptor closed twice (C89); a Unix socket that cannot be
  listened on leaves its file (C90); a client that connects without a display makes the server read NULL, one that
  connects over a Unix socket has uninitialised memory logged as its address (C91).

Keys and logging
* Comparing clocks: the sum of two differences overflows for every honest client whose clock differs from the server's by
  more than 18 minutes modulo 72; a client whose clock reads 0 is answered again (C113). Server leaves these numbers out.
* 14 key codes that no key has are taken for other keys (C94). An empty log message and one that begins or ends with a
  byte above 127 are undefined behaviour (C96).

Pixels and encoders
* Maxima of the 4444 formats; big endian sources are read as little endian (C47).
* Compact pixel size and shift (C64, C41); palette on the stack overflows with four byte compact pixels (C43).
* Tight: fewer than 12 bytes are compressed, JPEG failures become empty images, pixel size (C65); one spare byte
  for a three byte length (C44, C45); int16_t arithmetic beyond 32704 (C45); more than 65535 tiles (C56).
* JPEG images always have half the colour resolution: full resolution is meant for the best level, but 11 times the
  level plus one is compared with 9 (C119). An image that is too large for its tile is not freed (read).
* Cursor: mask overflow, missing mask without alpha, reads beyond every 16 bit image of two rows (C50).
* Log (C112): `rfb_pixfmt_to_string` has no name for RGBX1010102 (`c112_formats_violated`).
* Turned cursors (C111): the hotspot stays where it was but for exchanged coordinates (`c111_hotspot_violated`), another
  part of a larger image is sent (`c111_part_violated`), clearing the new image writes out of bounds for 16 bit formats
  (`c111_memset_violated`), an image that cannot be mapped loses a reference (`c111_reference_violated`).
* Encoder jobs: Tight forgets the time of a frame given while another is handed over; uses a framebuffer it gave back
  if one of its workers cannot be started; never finishes if its last work cannot be; uses a missing grid after a
  failed resize; Raw and ZRLE abort if a framebuffer cannot be mapped (C105).
* H.264: the reset flag is the constant 0 (C69); NULL dereference without a codec, failed assertion for an empty
  framebuffer (C70); an empty packet stalls the client, the queue is lost with its codec (C71); NULL result on allocation failure (C57).

Displays and buffers
* Feeding releases before it holds (C40). Acquired and never fed buffers leak the pool (C40). GBM unmap before the
  release callback keeps a buffer out of its pool (read). `nvnc_fb_new` computes the size with 32 bits and accepts a
  stride below the width (C92). The hardware encoder unmaps a buffer under other users, threads that map at once leak a
  mapping or read NULL, setting the same cursor again calls the release callback (C93). `nvnc_fb_map` divides by the
  pixel size 0 of an unknown format; damage refinery and resampler ignore its result (read).
* Resampled frames overtake each other; damage is lost without memory (C66); hash zero, int16_t beyond 32736,
  damage outside (C51). Framebuffers of 32768 columns or more cannot be turned (C52).
* A framebuffer fed with a transform must not outlive the display: freeing it writes into the freed resampler. A display
  or server that goes while a framebuffer is turned, and a display fed after `nvnc_del`, are used after they were freed:
  `display->server` is never cleared. `nvnc_get_userdata` of a framebuffer fed with a transform returns a record of the
  resampler if the application attached nothing; attaching something then leaks that record (C107).
* Raw (C46): the offset of a row is computed in 32 bits, so that damage 2 GB or more behind the beginning of a
  framebuffer is never encoded (`c46_large_violated`); ZRLE (C42) has the same for tiles (`c42_large_violated`).
* V4L2 devices (C110): `16 % step_width` divides by zero if a driver leaves the step at zero (`c110_step_violated`); the
  size that is set is padded to 16 and may be more than the device's largest (`c110_padding_violated`), steps are not
  counted from the smallest size (`c110_steps_violated`); if the first device lacks the pixel format no other is tried
  (`c110_next_violated`); the answer of `VIDIOC_S_FMT` is not looked at (`c110_answer_violated`); unless the height is a
  multiple of 16, planes are announced with more rows than they have (`c110_planes_violated`).
* FFmpeg (C122): the size of a plane's memory is announced without the plane's offset, so a plane that does not begin
  where its memory does is said to lie outside (`c122_extent_violated`).
* RSA key files (C109): with Windows line ends every key is refused (`c109_windows_violated`); a file without END line,
  or cut off within the text, is decoded as far as it goes and handed to nettle (`c109_cut_violated`).
* Error paths (C108): a damage refinery that cannot be resized is given back twice; a Tight encoder without a work item
  is destroyed with NULL; `find_render_node` never reports failure, and the name is read unwritten; FFmpeg's filter
  graph leaks when the codec cannot be opened; a frames context that cannot be initialised crashes the first frame;
  V4L2 leaks its mappings when a later step fails and uses a handler that is NULL; `rcbuf_from_string`,
  `crypto_rsa_priv_key_load` and `resampler_feed` leak; `stream_ws_new` ignores that there is no handler.
* Formats unknown to pixman are rated above zero and abort when they must be transformed (C68).

Flow control
* int32_t microseconds overflow, forged fence payloads overflow (C59), sums of samples overflow (C53), division by
  zero holds a client back for ever (C67).
* The 33 ms allowed for beyond the round trip are added to a number of bytes (server.c 910-912: the brackets are
  missing), so the limit is the product of rate and round trip alone (C118).

## Mutation tests

`seeded/LOG.jsonl` has one line for each edit of the model that was tried. Edits after which everything still
proved led to tighter theorems (`theorems_tightened`), or are equivalent (note). c30_ignored_frames, c30_no_overrun,
c32_names_case_insensitive and c16_latest were added, and c42_zrle_partial and c65_basic_partial strengthened, because of
such an edit.
