{"id": "C01", "title": "No session without successful authentication", "statement": "If the application enabled authentication (NVNC_AUTH_REQUIRE_AUTH) before a client connected, that client is never sent the ServerInit message and never reaches the phase in which its messages drive input/framebuffer callbacks unless the application's auth callback returned true for that very connection.", "quantifier": "every byte stream a client can send, every segmentation of it into reads, every verdict function of the application", "why_tests_cant": "The set of byte streams is infinite and an attacker chooses one; a test only shows that the tried streams are rejected.", "anchors": ["src/server.c: on_version_message, on_security_message, on_init_message, try_read_client_message", "src/auth/apple-dh.c: apple_dh_handle_response", "src/auth/vencrypt.c: vencrypt_handle_message", "src/auth/rsa-aes.c: rsa_aes_handle_message", "src/auth/common.c: security_handshake_ok"]}
{"id": "C02", "title": "The reported user name is the authenticated one", "statement": "After authentication with user-based security types, nvnc_client_get_auth_username() is exactly the (length-limited) user name with which the application's auth callback was called and for which it answered true; without authentication it is NULL.", "quantifier": "every byte stream and segmentation, every verdict function", "why_tests_cant": "Requires relating two different effects over every possible handshake history.", "anchors": ["src/auth/common.c: security_handshake_ok", "src/auth/apple-dh.c", "src/auth/vencrypt.c", "src/auth/rsa-aes.c", "src/server.c: nvnc_client_get_auth_username"]}
{"id": "C03", "title": "Security types offered follow the configured policy", "statement": "The security types written to a client after the version exchange are determined by the auth flags: 'none' is offered iff authentication is not required, the unencrypted Apple-DH type is never offered when encryption is required, and a client can only start a handshake of an offered type.", "quantifier": "every combination of auth flags / available key material and every security type byte chosen by a client", "why_tests_cant": "The policy must hold for the full cross product of configurations and all 256 choices, including ones no test suite enumerates.", "anchors": ["src/server.c: init_security_types, is_allowed_security_type, on_security_message"]}
{"id": "C04", "title": "No application callback before the session is ready", "statement": "Before the client has completed the handshake and ClientInit, no pointer, key, key-code, cut-text, framebuffer-update-request or desktop-layout callback is invoked for that client.", "quantifier": "every byte stream and segmentation", "why_tests_cant": "Absence of an effect over all histories.", "anchors": ["src/server.c: try_read_client_message, on_client_message"]}
{"id": "C05", "title": "Plaintext bytes never enter an encrypted session", "statement": "Once a security type that switches the connection to an encrypted stream has been negotiated, every byte interpreted as credentials or as session traffic was received through the encrypted stream.", "quantifier": "every segmentation of the byte stream, including plaintext bytes pipelined behind the upgrade request", "why_tests_cant": "The violation needs one specific interleaving of reads with the stream upgrade.", "anchors": ["src/server.c: on_client_event", "src/auth/vencrypt.c: vencrypt_handle_message, on_vencrypt_subtype_message", "src/auth/rsa-aes.c: on_rsa_aes_challenge"]}
{"id": "C06", "title": "An exclusive client disconnects all others and nobody else", "statement": "When a client finishes the handshake asking for exclusive access, exactly the other clients of the server are disconnected; when it asks for shared access no client is disconnected.", "quantifier": "every set of connected clients and every shared-flag byte", "why_tests_cant": "Ranges over all client populations.", "anchors": ["src/server.c: on_init_message, disconnect_all_other_clients"]}
{"id": "C07", "title": "Message interpretation does not depend on TCP segmentation", "statement": "The sequence of messages a ready client's byte stream is decoded into (and hence of callbacks) depends only on the concatenated bytes, not on how the network splits them into reads.", "quantifier": "every well-formed message sequence and every way of cutting its bytes into non-empty reads", "why_tests_cant": "There are exponentially many segmentations of each stream.", "anchors": ["src/server.c: on_client_event, try_read_client_message, on_client_message"]}
{"id": "C08", "title": "The receive buffer is never overrun", "statement": "While reading from a client the server never consumes bytes beyond those received: the read cursor stays within the bytes received and those stay within the 4096-byte buffer.", "quantifier": "every byte stream, every segmentation", "why_tests_cant": "An out-of-bounds cursor appears only for particular message boundaries.", "anchors": ["src/server.c: on_client_event, on_client_fence, process_client_cut_text", "include/common.h: MSG_BUFFER_SIZE"]}
{"id": "C09", "title": "A complete message is always consumed", "statement": "If the bytes received so far contain a complete well-formed message at the read position, the server processes it and moves past it, so that one client message can never permanently block the following ones.", "quantifier": "every well-formed message, every server-side client state", "why_tests_cant": "Needs all (state, message) pairs; the code has stalls in corner states.", "anchors": ["src/server.c: on_client_fb_update_request, on_client_set_encodings, on_client_event"]}
{"id": "C10", "title": "Key, key-code and pointer events are delivered exactly", "statement": "Each KeyEvent / QEMU extended key event / PointerEvent results in exactly one call of the corresponding callback with the decoded key symbol/code, pressed flag, coordinates and button mask.", "quantifier": "every field value", "why_tests_cant": "2^32 key symbols, 2^40 pointer states; off-by-one in byte order would only show for particular values.", "anchors": ["src/server.c: on_client_key_event, on_client_qemu_key_event, on_client_pointer_event", "src/qnum-to-evdev.c: code_map_qnum_to_linux"]}
{"id": "C11", "title": "QEMU key codes outside the table are harmless", "statement": "A QEMU extended key event with any 32-bit XT key code is either translated by the qnum table or reported as unknown; no memory outside the table is read.", "quantifier": "all 2^32 key codes", "why_tests_cant": "Memory safety for all inputs.", "anchors": ["src/server.c: on_client_qemu_key_event", "src/qnum-to-evdev.c"]}
{"id": "C12", "title": "SetEncodings is interpreted in client order", "statement": "After SetEncodings the client's encoding list is exactly the first 32 supported encodings sent, in the sent order, a quality/compression pseudo-encoding sets the level it denotes (last one wins) and unsupported ones have no effect.", "quantifier": "every list of 32-bit encodings", "why_tests_cant": "Infinitely many lists.", "anchors": ["src/server.c: on_client_set_encodings"]}
{"id": "C13", "title": "The frame encoding is the client's most preferred usable one", "statement": "A frame is encoded with the first encoding in the client's list that the server can produce for that framebuffer, and with raw if there is none.", "quantifier": "every encoding list and every framebuffer type", "why_tests_cant": "Infinitely many lists.", "anchors": ["src/server.c: choose_frame_encoding, client_has_encoding"]}
{"id": "C14", "title": "Cut text is reassembled for every segmentation", "statement": "A ClientCutText message of length within the limit results in exactly one cut-text callback with exactly the sent bytes, whatever its length relative to the receive buffer and however it is split into reads; over-long text closes the connection without calling back.", "quantifier": "every text length and content, every segmentation", "why_tests_cant": "Three different code paths depending on size and split.", "anchors": ["src/server.c: process_client_cut_text, process_big_cut_text, on_client_cut_text"]}
{"id": "C15", "title": "CR-LF normalisation of clipboard text", "statement": "Text received through the extended clipboard has each CR LF pair and each lone CR replaced by one LF and nothing else changed.", "quantifier": "every byte string", "why_tests_cant": "Infinite domain.", "anchors": ["src/server.c: crlf_to_lf"]}
{"id": "C16", "title": "Extended clipboard consent policy", "statement": "Clipboard text is pushed unsolicited to an extended-clipboard client only if the client enabled providing and the text is within the size it declared; otherwise, if the client supports it, only a notify is sent, and the text only follows a request; a client without the extension gets plain ServerCutText.", "quantifier": "every client capability word and every text size, every history of caps/notify/request/provide messages", "why_tests_cant": "Policy over all capability words and histories.", "anchors": ["src/server.c: process_client_ext_clipboard, send_cut_text_to_client, nvnc_send_cut_text, ext_clipboard_save_provide_msg"]}
{"id": "C17", "title": "Extended clipboard provide round-trip", "statement": "The text in a provide message produced by the server is accepted and recovered by a receiver following the same format the server requires of its clients.", "quantifier": "every text", "why_tests_cant": "Infinite domain; zlib layer abstract.", "anchors": ["src/server.c: ext_clipboard_save_provide_msg, process_client_ext_clipboard_provide"]}
{"id": "C18", "title": "Extended clipboard messages are bounds-checked", "statement": "For every length field of an extended clipboard message the server reads only bytes that belong to the message.", "quantifier": "all 2^32 length fields and all contents", "why_tests_cant": "Small negative lengths are a corner of a huge domain.", "anchors": ["src/server.c: process_client_cut_text, process_client_ext_clipboard"]}
{"id": "C19", "title": "Desktop layout requests reach the application only if valid", "statement": "The desktop-layout callback is called only with layouts in which every display lies within the requested desktop size, with every field decoded exactly; every SetDesktopSize request is answered to the requester with success only if the callback accepted and with an error status otherwise.", "quantifier": "every SetDesktopSize message", "why_tests_cant": "16-bit wraparound corners.", "anchors": ["src/server.c: on_client_set_desktop_size_event, check_desktop_layout, send_extended_desktop_size_rect", "src/desktop-layout.c"]}
{"id": "C20", "title": "Fence requests are echoed faithfully", "statement": "Each fence request with supported flags and payload of at most 64 bytes is answered by exactly one fence response carrying the same payload and the supported subset of its flags with the request bit cleared.", "quantifier": "every flags word and payload", "why_tests_cant": "Infinite domain.", "anchors": ["src/server.c: on_client_fence, on_fence_request, send_fence, process_pending_fence"]}
{"id": "C21", "title": "Fences never abort the server", "statement": "No sequence of fences, update requests and update completions makes the server abort.", "quantifier": "every interleaving of client messages with frame completions", "why_tests_cant": "Needs particular interleavings.", "anchors": ["src/server.c: on_fence_request, process_pending_fence, complete_fb_update, decrement_pending_requests"]}
{"id": "C22", "title": "Updates are never unsolicited", "statement": "Without continuous updates the number of framebuffer updates started for a client never exceeds the number of update requests it has made.", "quantifier": "every interleaving of requests, damage, frame completions and API calls", "why_tests_cant": "Interleavings.", "anchors": ["src/server.c: process_fb_update_requests, on_client_fb_update_request, decrement_pending_requests, complete_fb_update"]}
{"id": "C23", "title": "At most one frame is being encoded per client", "statement": "For each client a new frame is only handed to its encoder after the previous one has been finished.", "quantifier": "every interleaving", "why_tests_cant": "Interleavings.", "anchors": ["src/server.c: process_fb_update_requests, on_encode_frame_done, finish_fb_update"]}
{"id": "C24", "title": "Damage is never lost", "statement": "Every pixel damaged by the application is, for every ready client, either still pending or was contained in the damage of a frame handed to that client's encoder after it was damaged.", "quantifier": "every history of damage, requests, completions, pixel-format/encoding changes", "why_tests_cant": "History property over all pixels and interleavings.", "anchors": ["src/server.c: nvnc__damage_region, process_fb_update_requests, on_client_fb_update_request"]}
{"id": "C25", "title": "Damage-consuming clients are counted exactly", "statement": "The server-side count of clients whose encoding needs damage tracking equals the number of connected clients using such an encoding, so damage refinement is on exactly when needed.", "quantifier": "every history of connects, encoder changes and disconnects", "why_tests_cant": "Counter drift only shows after specific histories.", "anchors": ["src/server.c: ensure_encoder, client_close, process_fb_update_requests", "src/display.c: nvnc_display_feed_buffer"]}
{"id": "C26", "title": "Outgoing data is sent in order, without loss or duplication", "statement": "For every sequence of sends and every partial-write behaviour of the socket, the bytes that reach the socket are a prefix of the concatenation of the queued payloads, and together with the bytes still queued they are all of it.", "quantifier": "every sequence of sends and flushes and every per-call byte count / EAGAIN the kernel may return", "why_tests_cant": "Unbounded partial-write schedules.", "anchors": ["src/stream/tcp.c: stream_tcp__flush, stream_tcp_send", "src/stream/interface.c"]}
{"id": "C27", "title": "Each send completes exactly once", "statement": "The completion callback of every queued send is invoked exactly once: with success only after all of its bytes were written, with failure if the stream closes first.", "quantifier": "every schedule of writes, errors and close", "why_tests_cant": "Unbounded schedules.", "anchors": ["src/stream/tcp.c: stream_tcp__flush, stream_tcp_close", "src/stream/common.c: stream_req__finish"]}
{"id": "C28", "title": "Queued data is always eventually flushed", "statement": "Whenever data is queued on an open uncorked stream, the stream is waiting for writability, so it makes progress without a further send.", "quantifier": "every schedule", "why_tests_cant": "The lost wake-up needs an exact coincidence of a partial write with a request boundary.", "anchors": ["src/stream/tcp.c: stream_tcp__flush"]}
{"id": "C29", "title": "WebSocket frame headers round-trip", "statement": "Parsing a written frame header yields the same fin/opcode/length, for every length, and the parser never reads beyond the given bytes.", "quantifier": "every header, every payload length < 2^64, every buffer", "why_tests_cant": "Three length encodings with boundary values over 2^64.", "anchors": ["src/stream/ws/framing.c: ws_parse_frame_header, ws_write_frame_header"]}
{"id": "C30", "title": "WebSocket payload delivery is independent of segmentation", "statement": "The payload bytes delivered to the RFB layer are the unmasked concatenation of the data frames' payloads regardless of frame sizes and TCP segmentation.", "quantifier": "every frame sequence and every segmentation", "why_tests_cant": "Masking phase errors only appear when a frame is split at an offset that is not a multiple of four.", "anchors": ["src/stream/ws/ws.c: stream_ws_read, stream_ws_read_frame, stream_ws_process_payload", "src/stream/ws/framing.c: ws_copy_payload, ws_apply_mask"]}
{"id": "C31", "title": "WebSocket pings are answered with their own payload", "statement": "A ping frame is answered by one pong frame whose declared length and payload equal the ping's unmasked payload.", "quantifier": "every ping payload and segmentation", "why_tests_cant": "Segmentation dependent.", "anchors": ["src/stream/ws/ws.c: stream_ws_process_ping"]}
{"id": "C32", "title": "HTTP upgrade parsing is memory safe and segmentation independent", "statement": "The HTTP request parser accepts a request only when complete and never stores more header fields than it has room for.", "quantifier": "every byte string", "why_tests_cant": "All inputs, adversarial.", "anchors": ["src/stream/ws/http.c: http_req_parse, http__header, http__headers"]}
{"id": "C33", "title": "WebSocket handshake terminates", "statement": "Handling of any HTTP upgrade request terminates.", "quantifier": "every header value", "why_tests_cant": "Non-termination on a class of inputs.", "anchors": ["src/stream/ws/handshake.c: tolower_and_remove_ws, ws_handshake"]}
{"id": "C34", "title": "RSA-AES stream delivers only authenticated data, in order", "statement": "The bytes delivered by an RSA-AES encrypted stream are the concatenation of the plaintexts of messages whose MAC verified under the expected counter, in order; nothing is delivered from a message whose MAC does not match.", "quantifier": "every byte stream (attacker controlled) and segmentation, every cipher", "why_tests_cant": "Adversarial input and segmentation.", "anchors": ["src/stream/rsa-aes.c: stream_rsa_aes_read, stream_rsa_aes_parse_header, stream_rsa_aes_read_message"]}
{"id": "C35", "title": "RSA-AES stream round-trip", "statement": "What one end sends through an RSA-AES stream is exactly what a peer using the same framing and keys receives, for every sequence of send sizes and every segmentation.", "quantifier": "every sequence of payloads and segmentations", "why_tests_cant": "Unbounded.", "anchors": ["src/stream/rsa-aes.c: stream_rsa_aes_send, stream_rsa_aes_read", "src/crypto/nettle/cipher.c"]}
{"id": "C36", "title": "AES-EAX nonces never repeat", "statement": "No two messages encrypted in one direction of a connection use the same nonce (within 2^128 messages), and sender and receiver use the same nonce for the same message.", "quantifier": "every number of messages", "why_tests_cant": "2^64 wrap is unreachable for tests.", "anchors": ["src/crypto/nettle/cipher.c: crypto_aes_eax_update_nonce, crypto_aes256_eax_update_nonce"]}
{"id": "C37", "title": "Base64 round-trip and output size", "statement": "base64_decode inverts base64_encode, the encoder writes exactly BASE64_ENCODED_SIZE bytes and the decoder never writes more than BASE64_DECODED_MAX_SIZE; input with characters outside the alphabet is rejected.", "quantifier": "every byte string / every character string", "why_tests_cant": "Infinite domain.", "anchors": ["src/base64.c", "include/base64.h"]}
{"id": "C38", "title": "Byte vectors behave like lists and never write past their capacity", "statement": "Any sequence of vec operations behaves like the corresponding list operations and every write is within the allocated capacity.", "quantifier": "every operation sequence", "why_tests_cant": "Reallocation boundaries.", "anchors": ["src/vec.c", "include/vec.h"]}
{"id": "C39", "title": "Reference counted objects are freed exactly once and only when unreferenced", "statement": "For every balanced use (each owner unrefs once) of rcbuf/framebuffer/pool/display/encoder the object is freed exactly when the last reference is dropped, and the release callback fires exactly when the hold count returns to zero.", "quantifier": "every interleaving of ref/unref/hold/release", "why_tests_cant": "All interleavings.", "anchors": ["src/rcbuf.c", "src/fb.c", "src/fb_pool.c"]}
{"id": "C40", "title": "A framebuffer pool never hands out a buffer that is in use", "statement": "A buffer acquired from a pool is not handed out again until it has been released, has the pool's current dimensions and format, and pool and buffers are freed exactly once.", "quantifier": "every sequence of acquire/release/resize/ref/unref", "why_tests_cant": "Histories.", "anchors": ["src/fb_pool.c", "src/fb.c: nvnc_fb_release", "src/display.c: nvnc_display_feed_buffer"]}
{"id": "C41", "title": "ZRLE tiles decode to the encoded pixels", "statement": "Decoding the tiles produced by the ZRLE encoder per RFC 6143 yields exactly the converted pixels of the tile, for raw, solid, packed-palette and RLE sub-encodings.", "quantifier": "every tile content and size, every client pixel format accepted", "why_tests_cant": "Huge domain; choice of sub-encoding depends on content.", "anchors": ["src/enc/zrle.c: zrle_encode_tile, zrle_encode_packed_tile, encode_run_length, zrle_get_tile_palette"]}
{"id": "C42", "title": "ZRLE covers every damaged pixel exactly once in protocol order", "statement": "The tiles emitted for a rectangle are 64x64 (clipped) tiles in row-major order that partition the rectangle, and rectangle headers describe exactly the damaged rectangles.", "quantifier": "every rectangle, every damage region", "why_tests_cant": "All sizes and clipping remainders.", "anchors": ["src/enc/zrle.c: zrle_encode_box, zrle_encode_frame"]}
{"id": "C43", "title": "ZRLE tile buffers never overflow", "statement": "Encoding any tile writes at most the reserved capacity of the tile buffer and of the on-stack palette.", "quantifier": "every tile and every client pixel format", "why_tests_cant": "Overflow needs palette >12 colours and a 4-byte compact pixel.", "anchors": ["src/enc/zrle.c: zrle_encode_box, zrle_encode_packed_tile", "src/enc/util.c: calc_bytes_per_cpixel"]}
{"id": "C44", "title": "Tight compact length round-trip", "statement": "The compact length representation decodes to the original length for all lengths that can occur (< 2^22).", "quantifier": "every length", "why_tests_cant": "Boundary values.", "anchors": ["src/enc/tight.c: tight_encode_size"]}
{"id": "C45", "title": "Tight covers every damaged tile exactly once", "statement": "The rectangles emitted by the Tight encoder are disjoint, stay within the framebuffer, cover every damaged pixel, their number equals the announced number of rectangles, and each zlib stream is used by one worker only.", "quantifier": "every framebuffer size and damage region, every worker completion order", "why_tests_cant": "All sizes and thread interleavings.", "anchors": ["src/enc/tight.c"]}
{"id": "C46", "title": "Raw encoding is exact", "statement": "The raw encoder emits for each damaged rectangle its header followed by width*height pixels of the client's format equal to the converted source pixels, in row order.", "quantifier": "every framebuffer, region and pixel format", "why_tests_cant": "Infinite domain.", "anchors": ["src/enc/raw.c: raw_encode_box, raw_encode_frame"]}
{"id": "C47", "title": "Pixel conversion preserves channel intensity", "statement": "Converting a pixel between two true-colour formats yields in each channel the source intensity rescaled to the destination depth (by bit truncation/shift), with the client's byte order, and is the identity on colour bits when formats agree.", "quantifier": "every pair of supported formats and every pixel value", "why_tests_cant": "2^32 pixels times all formats.", "anchors": ["src/pixels.c: pixel_to_cpixel, rfb_pixfmt_from_fourcc"]}
{"id": "C48", "title": "Client pixel formats cannot crash the server", "statement": "For every SetPixelFormat message the conversion performs only defined shifts and passes its assertions.", "quantifier": "every 16-byte pixel format", "why_tests_cant": "2^128 formats.", "anchors": ["src/server.c: on_client_set_pixel_format", "src/pixels.c: pixel_to_cpixel"]}
{"id": "C49", "title": "Colour map for palette clients is complete", "statement": "A client that requests a colour-mapped format gets a 256 entry RGB332 map and pixels that index the entry with the right colour.", "quantifier": "every palette index and pixel", "why_tests_cant": "Full table; cheap for proof.", "anchors": ["src/server.c: cook_pixel_map", "src/pixels.c: make_rgb332_pal8_map"]}
{"id": "C50", "title": "Cursor masks are exact", "statement": "Bit (x,y) of an encoded cursor mask is set iff the cursor image's alpha at that pixel is above one half; masks are row padded to bytes.", "quantifier": "every image size and content", "why_tests_cant": "All sizes and padding remainders.", "anchors": ["src/pixels.c: extract_alpha_mask", "src/cursor.c: cursor_encode"]}
{"id": "C51", "title": "Damage refinement never drops a changed tile", "statement": "Refined damage contains every pixel that lies in the hinted damage and whose 32x32 tile's hash changed since it was last hashed, lies within the framebuffer and within the tiles touched by the hint.", "quantifier": "every sequence of frames and damage hints", "why_tests_cant": "Histories of frames.", "anchors": ["src/damage-refinery.c"]}
{"id": "C52", "title": "Transforms are consistent bijections", "statement": "For every output transform, damage region transformation and buffer resampling use the same pixel bijection between the source and destination rectangles, and dimensions are swapped exactly for 90 degree rotations.", "quantifier": "every transform, every width/height and every pixel", "why_tests_cant": "All sizes.", "anchors": ["src/transform-util.c", "src/resampler.c: resample_now"]}
{"id": "C53", "title": "Bandwidth estimation uses exactly the latest samples", "statement": "The bandwidth estimator's estimate is a function of the last 16 samples fed, in order, and of the minimum RTT.", "quantifier": "every sample history", "why_tests_cant": "Ring buffer wrap.", "anchors": ["src/bandwidth.c"]}
{"id": "C54", "title": "Names are truncated safely", "statement": "nvnc_set_name stores the longest prefix that fits, always terminated, and ServerInit transmits exactly it with its length.", "quantifier": "every string", "why_tests_cant": "Boundary lengths.", "anchors": ["src/server.c: nvnc_set_name, send_server_init_message"]}
{"id": "C55", "title": "LED state is sent only when changed and decodes correctly", "statement": "A LED-state rectangle is sent only to clients that support it, only when the state changed, and carries the state in the layout of the encoding announced in its header.", "quantifier": "every history of LED states and client encodings", "why_tests_cant": "Histories.", "anchors": ["src/server.c: nvnc_client_set_led_state, client_send_led_state"]}
{"id": "C56", "title": "Server-side frame header agrees with its rectangles", "statement": "Every FramebufferUpdate message announces exactly the number of rectangles that follow it.", "quantifier": "every encoded frame, PTS/resize/cursor/LED combination", "why_tests_cant": "Combination of optional rectangles and 16-bit truncation.", "anchors": ["src/server.c: finish_fb_update, send_desktop_resize_rect, send_cursor_update, send_ext_support_frame"]}
{"id": "C57", "title": "H.264 rectangles are self-delimiting", "statement": "Each H.264 update is one rectangle whose length field equals the number of following payload bytes and whose payload is the concatenation of encoder packets since the previous update, in order.", "quantifier": "every packet sequence", "why_tests_cant": "Histories.", "anchors": ["src/enc/h264/open-h264.c"]}
{"id": "C58", "title": "Pixel format rating is well-behaved", "statement": "nvnc_rate_pixel_format rates unsupported formats 0, never exceeds 1, and rates formats matching the deepest client at least as high as shallower ones.", "quantifier": "every format/modifier and client population", "why_tests_cant": "Populations.", "anchors": ["src/server.c: nvnc_rate_pixel_format, find_highest_client_depth", "src/pixels.c: rate_pixel_format"]}
{"id": "C59", "title": "The running minimum RTT is the minimum of measurements", "statement": "The minimum round-trip time used for flow control equals the minimum of all measured round-trip times of the client.", "quantifier": "every history of ping responses", "why_tests_cant": "Histories.", "anchors": ["src/server.c: update_min_rtt, on_fence_response"]}
{"id": "C60", "title": "A client object is destroyed exactly once and never used afterwards", "statement": "However a connection ends, the client object is freed exactly once and no code uses it after that.", "quantifier": "every history of messages, stream events and API calls", "why_tests_cant": "Use after free needs specific message/close interleavings.", "anchors": ["src/server.c: client_close, defer_client_close, nvnc_client_close, on_client_event"]}
{"id": "C61", "title": "WebSocket handshake reply is the one RFC 6455 requires", "statement": "Whenever the server answers an upgrade request, the answer is a 101 response whose Sec-WebSocket-Accept is base64(SHA-1(key ++ GUID)) for the client's key, and a selected subprotocol is one the client offered; every well-formed request carrying a key is answered.", "quantifier": "all requests, all SHA-1 outputs", "why_tests_cant": "The set of requests is unbounded; tests try a few keys.", "anchors": ["src/stream/ws/handshake.c:39-106", "src/stream/ws/http.c:450-473"]}
{"id": "C62", "title": "The clipboard is only sent to clients in a session", "statement": "Text the application passes to nvnc_send_cut_text is written only to clients that have finished the handshake (and so, where authentication is required, have been approved); each such client without the extended clipboard is sent exactly the text.", "quantifier": "every set of clients in every phase of their handshake, every text", "why_tests_cant": "Ranges over all handshake states of all clients at the moment of the call.", "anchors": ["src/server.c: nvnc_send_cut_text, send_cut_text_to_client"]}
{"id": "C63", "title": "A finished frame reaches the client", "statement": "A frame that an encoder finishes for a client whose connection is open is sent to that client, or the region it was made for stays recorded as damage for that client.", "quantifier": "every history of requests, format and encoding changes and finished frames", "why_tests_cant": "The outcome depends on what the client sends while an encoder is running.", "anchors": ["src/server.c: finish_fb_update, on_encode_frame_done, on_client_set_encodings, on_client_set_pixel_format"]}
{"id": "C64", "title": "Compact pixels are those of the protocol", "statement": "For every true colour client format the compact pixels in ZRLE and Tight data have the size that RFC 6143 (7.7.5) derives from that format, and read as the RFC says they hold the framebuffer's colours.", "quantifier": "every client pixel format with non-overlapping components, every pixel", "why_tests_cant": "The rule depends on bits per pixel, depth and three shifts and widths; common clients only use two of the combinations.", "anchors": ["src/enc/util.c: calc_bytes_per_cpixel", "src/pixels.c: pixel32_to_cpixel"]}
{"id": "C65", "title": "Tight rectangles decode to the framebuffer's pixels", "statement": "Every rectangle the Tight encoder emits is one a client that follows the rfbproto document can decode: data of fewer than 12 bytes are sent raw, all other tiles as the complete flushed output of the zlib stream named in the control byte, in the order of the rectangles, for the tile's pixels as TPIXELs of the client's format; or else the rectangle carries the JPEG image of the tile.", "quantifier": "every framebuffer, client format, damage, schedule of the four workers and behaviour of zlib and libjpeg", "why_tests_cant": "Depends on tile sizes at the edges, on pixel formats and on thread interleavings.", "anchors": ["src/enc/tight.c: tight_encode_tile_basic", "src/enc/tight.c: tight_encode_tile_jpeg", "src/enc/tight.c: tight_finish_tile"]}
{"id": "C66", "title": "The display shows the last frame fed, and reports what changed", "statement": "Once all frames fed to a display are processed, the buffer shown has the pixels of the last one moved by its transform, and the damage reported for it has exactly the transformed positions of the pixels that the damage refinery found changed (or of the damage given, when refinement is off).", "quantifier": "every sequence of frames, transforms and damage, every order in which workers finish", "why_tests_cant": "Depends on histories of hashes, on transforms and on the order in which worker threads finish.", "anchors": ["src/display.c: nvnc_display_feed_buffer, nvnc_display__on_resampler_done", "src/resampler.c: resampler_feed"]}
{"id": "C67", "title": "Flow control does not hold back a client with nothing in flight", "statement": "The count of data in flight to a client is what was sent to it and not yet confirmed. When everything was confirmed, frames are not held back for lack of bandwidth, whatever the measurements were.", "quantifier": "every history of measurements, frames sent and answers", "why_tests_cant": "Histories of timings; a client that is held back for ever looks like a slow one.", "anchors": ["src/server.c: process_fb_update_requests, send_ping, on_fence_response", "src/bandwidth.c"]}
{"id": "C68", "title": "A pixel format that is rated above zero can be displayed", "statement": "A frame whose format and modifier are rated above 0 can be encoded, and displayed with every transform; a cursor image whose format is rated above 0 has a mask.", "quantifier": "every format and modifier, and every population of clients", "why_tests_cant": "The tables are in different functions, for different uses, and cover different formats.", "anchors": ["src/pixels.c: rate_pixel_format, rfb_pixfmt_from_fourcc, pixel_size_from_fourcc, fourcc_to_pixman_fmt, extract_alpha_mask", "src/resampler.c: resample_now"]}
{"id": "C69", "title": "A new H.264 stream tells the client to reset its decoder", "statement": "When the server starts a new H.264 stream for a client (after a change of size, format or quality), the first rectangle of the stream has the ResetContext flag set, as the Open H.264 encoding requires.", "quantifier": "every history of frames, sizes, formats and quality settings", "why_tests_cant": "Decoders that accept parameter sets in mid-stream hide the missing flag; only some resizes at some times show it.", "anchors": ["src/enc/h264/open-h264.c: OPEN_H264_FLAG_RESET_CONTEXT, open_h264_pull"]}
{"id": "C70", "title": "Key frame requests and H.264 frames never crash the server", "statement": "Whatever sequence of frames, finished jobs, quality settings, full update requests and destruction a client's H.264 encoder goes through, no operation dereferences NULL, violates an assertion or accesses memory out of bounds.", "quantifier": "every sequence of operations on an encoder, with every behaviour of the codec", "why_tests_cant": "The failing orders need a codec that cannot be created for one format, at one time.", "anchors": ["src/enc/h264/open-h264.c: open_h264_request_keyframe, open_h264_encode", "src/server.c: on_client_fb_update_request"]}
{"id": "C71", "title": "Every frame given to the H.264 encoder is coded, finished and released once", "statement": "Frames are given to the codec in the order they were accepted, each hold on a frame is released exactly once, and for every accepted frame an update is finished, so that the client can get the next one.", "quantifier": "every sequence of operations on an encoder, including destruction and resizing while jobs are running", "why_tests_cant": "Depends on when jobs finish relative to resizing and destruction.", "anchors": ["src/enc/h264/ffmpeg-impl.c: h264_encoder__schedule_work, h264_encoder__on_work_done, h264_encoder_ffmpeg_destroy"]}
{"id": "C72", "title": "Frames are coded by a codec of their size, format and quality", "statement": "Every accepted frame goes to a codec that was created for frames of exactly its width, height and format, with the quantiser that belongs to the quality set last.", "quantifier": "every history of frames and quality settings", "why_tests_cant": "Depends on the history of sizes, formats and qualities.", "anchors": ["src/enc/h264/open-h264.c: open_h264_encode, open_h264_resize, open_h264_set_quality"]}
{"id": "C73", "title": "Key frames are made when asked for, and only then", "statement": "The pictures that are coded as key frames are exactly the first one of each codec and the first one after a key frame was asked for, by a full update request.", "quantifier": "every sequence of operations on an encoder", "why_tests_cant": "Depends on the order of requests, queued frames and finished jobs.", "anchors": ["src/enc/h264/ffmpeg-impl.c: h264_encoder__schedule_work, h264_encoder__do_work", "src/enc/h264/open-h264.c: open_h264_request_keyframe"]}
{"id": "C74", "title": "Apple Diffie-Hellman logs the user in with the credentials typed", "statement": "When a client chooses security type 30, the server sends a generator, a group and a public key of the announced length. If the client answers as the protocol describes, with any secret of its own, the application's authentication callback receives exactly the user name and password that the client encrypted. No secret drawn by the server and no message of the client stops the server.", "quantifier": "for all server secrets, all client secrets, all user names and passwords of at most 63 bytes, and all client messages", "why_tests_cant": "The outcome depends on a 2048-bit random secret: one in 256 public keys starts with a zero byte, and a test that runs the handshake a few times does not meet it.", "anchors": ["src/auth/apple-dh.c:24-110", "src/crypto/nettle/key.c:33-176", "include/crypto/nettle/common.h:8-35"]}
{"id": "C75", "title": "RSA-AES: both ends agree on random numbers, session keys and transcript", "statement": "In security types 5 and 129 a client with any proper RSA key decrypts the server's challenge to the server's random number. After the client has sent its own, both ends have the same two session keys, derived from both random numbers in the order of the protocol. The server's hash covers the two public key messages exactly as exchanged, and the server accepts exactly the matching hash from the client.", "quantifier": "for all server keys, client keys, key lengths, random numbers and RSA ciphertexts", "why_tests_cant": "Ciphertexts are random numbers; those with a leading zero byte occur once in 256 handshakes, and key lengths that are not multiples of 8 are not generated by common clients.", "anchors": ["src/auth/rsa-aes.c:24-267", "src/crypto/nettle/rsa.c:53-221", "src/crypto/nettle/hash.c:92-100", "include/crypto/nettle/common.h:8-35"]}
{"id": "C76", "title": "No RSA key or challenge of a client stops the server", "statement": "Whatever public key message and challenge message a client sends before it has authenticated, the server handles them without memory errors and without a failed assertion.", "quantifier": "for all public key messages, including short, even, long or inconsistent keys, and all challenge messages", "why_tests_cant": "The space of keys is unbounded and the failures need keys no library generates: longer than 1022 bytes, shorter than 12 bytes, even, or with an exponent longer than the modulus.", "anchors": ["src/auth/rsa-aes.c:59-105", "src/auth/rsa-aes.c:118-267", "src/crypto/nettle/rsa.c:53-68", "include/crypto/nettle/common.h:18-35"]}
{"id": "C77", "title": "A client that is owed an update is not kept waiting", "statement": "When a client is connected, a buffer is shown, the client has asked for an update (by a request or by enabling continuous updates) and a pixel it is interested in has changed since the last frame given to it, then an update is under way for it. Nothing has to happen first: no further damage, request or fence. If an encoder could not be had or the bandwidth estimate held the client back, the next damage, cursor or LED event gets things going again.", "quantifier": "for all runs of a client: all sequences of messages, damage, buffers, cursors, LED states, encoder and socket completions", "why_tests_cant": "A lost wake-up shows only as a picture that stays stale until something else happens; it depends on the order of requests, damage and completions.", "anchors": ["src/server.c:828-959", "src/server.c:961-1009", "src/server.c:1419-1451", "src/server.c:2438-2545", "src/display.c:30-52"]}
{"id": "C78", "title": "Over TLS, outgoing data is sent in order and each send completes once", "statement": "After the switch to TLS, for every sequence of sends, every partial write or postponement by the TLS library and every re-entrant completion callback: the bytes that went out are a prefix of what was handed over, in order; on an open stream the queue holds exactly the rest; the callback of every send is invoked exactly once, with success only after all its bytes went out, with failure if the stream closes first.", "quantifier": "every left-over queue at the upgrade, every handshake, every sequence of sends, events, arrivals and closes, every result of gnutls_record_send", "why_tests_cant": "Unbounded schedules with re-entrant callbacks and repeated calls.", "anchors": ["src/stream/gnutls.c:81-124", "src/stream/gnutls.c:171-188", "src/stream/gnutls.c:48-72"]}
{"id": "C79", "title": "Over TLS, queued data goes out without a further send", "statement": "Whenever data is queued on a TLS stream whose handshake is over, the event loop waits for the socket to become writable, so the data goes out without any further call.", "quantifier": "every run of a TLS stream", "why_tests_cant": "The lost wake-up needs a socket that is full at the moment of the upgrade.", "anchors": ["src/stream/gnutls.c:81-124", "src/stream/gnutls.c:221-246"]}
{"id": "C80", "title": "A lost TLS connection is reported", "statement": "When a TLS connection fails or ends, whatever the cause, the owner of the stream is told, so that the client is removed and its resources are freed.", "quantifier": "every run of a TLS stream: every handshake result, send result and arrival", "why_tests_cant": "Failures at each step of the handshake and of each send would have to be injected.", "anchors": ["src/stream/gnutls.c:81-124", "src/stream/gnutls.c:126-157", "src/stream/gnutls.c:190-246", "src/stream/common.c:35-41"]}
{"id": "C81", "title": "Data received over TLS is processed in order and without waiting for more", "statement": "What the server reads from a TLS stream is what the peer sent, in order and without loss, and data that has arrived is read without waiting for the peer to send more.", "quantifier": "every division into records and every amount of room at each read", "why_tests_cant": "Depends on the sizes of records against the fill of the message buffer.", "anchors": ["src/stream/gnutls.c:190-219", "src/server.c:1938-1993"]}
{"id": "C82", "title": "What was sent before the switch to TLS goes out in the clear", "statement": "Data handed to the stream before the switch to TLS is not sent inside the TLS session: the peer needs it to start the handshake.", "quantifier": "every content of the send queue at the upgrade", "why_tests_cant": "Needs a socket that is full at the moment of the upgrade.", "anchors": ["src/stream/gnutls.c:255-292", "src/auth/vencrypt.c:73-101"]}
{"id": "C83", "title": "No peer can crash the server through a TLS stream", "statement": "Whatever a peer sends and whenever it stops reading, using a TLS stream never fails an assertion, never uses freed memory or a session that is gone, and never breaks the rule that a postponed send is repeated with the same data.", "quantifier": "every run of a TLS stream", "why_tests_cant": "The failures need coincidences of readability, writability, full buffers and send errors.", "anchors": ["src/stream/gnutls.c:81-169", "src/stream/gnutls.c:190-219", "src/server.c:1938-1993", "src/server.c:2419-2436"]}
{"id": "C84", "title": "Framebuffers stay held while the hardware encoder reads them, and come back", "statement": "A framebuffer given to the hardware encoder's device is held as often as the device reads it, and each hold is released exactly once; the descriptors made for the device are closed exactly once; using the encoder fails no assertion; once the encoder is gone nothing is held or open any more.", "quantifier": "every sequence of frames, key-frame requests, device events in any order, and attempts to end the encoder", "why_tests_cant": "The device completes buffers asynchronously and in any order; a wrong count shows as tearing or a leak.", "anchors": ["src/enc/h264/v4l2m2m-impl.c:93-121", "src/enc/h264/v4l2m2m-impl.c:367-395", "src/enc/h264/v4l2m2m-impl.c:462-512", "src/enc/h264/v4l2m2m-impl.c:707-737"]}
{"id": "C85", "title": "Every frame fed to the hardware encoder is encoded", "statement": "A frame fed to the hardware encoder is given to the device, and a request for a key frame takes effect on the next frame given to it.", "quantifier": "every state of the encoder and every frame", "why_tests_cant": "Depends on how many frames the device holds at the time.", "anchors": ["src/enc/h264/v4l2m2m-impl.c:93-112", "src/enc/h264/v4l2m2m-impl.c:462-512", "src/enc/h264/v4l2m2m-impl.c:731-737"]}
{"id": "C86", "title": "Packets of the hardware encoder are passed on once and in order", "statement": "Every packet the device writes is passed on exactly once, in the order in which the device wrote them, and the device gets each destination buffer back.", "quantifier": "every sequence of operations", "why_tests_cant": "The order of packets, frames and events is not under the control of a test.", "anchors": ["src/enc/h264/v4l2m2m-impl.c:328-365", "src/enc/h264/v4l2m2m-impl.c:514-518"]}
{"id": "C87", "title": "A framebuffer comes back when the hardware encoder has finished with it", "statement": "When the device has finished reading a framebuffer, the framebuffer is released without the application having to provide another frame.", "quantifier": "every run of the encoder", "why_tests_cant": "Shows only as an application that waits for a buffer that nobody uses.", "anchors": ["src/enc/h264/v4l2m2m-impl.c:367-395", "src/enc/h264/v4l2m2m-impl.c:514-518", "src/enc/h264/v4l2m2m-impl.c:731-737"]}
{"id": "C88", "title": "Setting up the hardware encoder copes with every driver", "statement": "Whatever formats and however many buffers a driver has, setting the encoder up stays within its arrays and fails no assertion, and the pixel format chosen for the device has the byte order of the framebuffers.", "quantifier": "every list of formats, number of buffers and framebuffer format", "why_tests_cant": "Needs drivers that nobody has at hand.", "anchors": ["src/enc/h264/v4l2m2m-impl.c:130-194", "src/enc/h264/v4l2m2m-impl.c:279-326", "src/enc/h264/v4l2m2m-impl.c:490-499"]}
{"id": "C89", "title": "Every descriptor of the server is closed exactly once", "statement": "Whatever sockets are opened, fail to open, accept clients and lose them, the server closes each descriptor that it opened or was given exactly once, not before it has stopped using it, and no other; after nvnc_del all of them are closed.", "quantifier": "every sequence of listen calls, connections, failures and disconnections", "why_tests_cant": "A descriptor closed twice does harm only if another thread has opened one in between.", "anchors": ["src/server.c:1997-2100", "src/server.c:2100-2417"]}
{"id": "C90", "title": "Socket files go away with the server, other files stay", "statement": "The file of a Unix socket exists while the server listens on it and is removed when the server is deleted or listening fails; the server never removes a file that it did not make.", "quantifier": "every sequence of listen calls, including those that fail half way", "why_tests_cant": "Failing between bind and listen cannot be provoked from outside.", "anchors": ["src/server.c:2180-2417"]}
{"id": "C91", "title": "A connection is safe at any time", "statement": "Once the server listens, a client may connect over any kind of socket, whether or not the application has added a display or fed it a buffer.", "quantifier": "every sequence of calls and connections", "why_tests_cant": "Tests set the server up completely before they connect, and uninitialised memory happens to be a short string.", "anchors": ["src/server.c:1997-2100"]}
{"id": "C92", "title": "A new framebuffer has room for its pixels", "statement": "For every width, height and stride that nvnc_fb_new accepts, every pixel of the image lies inside the memory that it allocates, and no two pixels overlap.", "quantifier": "all widths, heights and strides below 2^16, all pixel sizes", "why_tests_cant": "Sizes at which 32 bits overflow need gigabytes of memory.", "anchors": ["src/fb.c:32-65"]}
{"id": "C93", "title": "A framebuffer stays as long as it is used", "statement": "A framebuffer is freed exactly when the application and all users inside the library have let go of it; the application is told that it is free when the last user lets go and not while it is in use; a user that has mapped it can read its pixels until it lets go, whatever the other users do; no mapping outlives the last user.", "quantifier": "every interleaving of users, in worker threads or not, and of the application", "why_tests_cant": "Depends on several encoders using one GPU buffer at the same time.", "anchors": ["src/fb.c:172-284", "src/enc/raw.c:109", "src/enc/h264/v4l2m2m-impl.c:390", "src/server.c:2900-2915"]}
{"id": "C94", "title": "Every key arrives as itself", "statement": "A key of a PC keyboard that is sent as QEMU extended key event arrives at the application with the evdev code of that key, and different keys arrive with different codes.", "quantifier": "all key codes inside the table, both directions, all states of a client after the handshake", "why_tests_cant": "Tests try a few keys; a collision needs all pairs.", "anchors": ["src/qnum-to-evdev.c:7-244", "src/server.c:1032-1055"]}
{"id": "C95", "title": "Log messages go to the right function", "statement": "A message is logged exactly when its level is at most the level set last, by the function set last for the thread, or else for all threads, or else by the default one; a PANIC message is always logged before the process is aborted; levels survive the way to libav and back.", "quantifier": "every sequence of settings, every thread and level", "why_tests_cant": "All sequences of settings in several threads.", "anchors": ["src/logging.c:36-50", "src/logging.c:98-112", "src/logging.c:131-193"]}
{"id": "C96", "title": "Log messages are complete", "statement": "What a log function receives is the first 1023 bytes of the formatted text without the white space around them, for every text.", "quantifier": "all texts", "why_tests_cant": "Undefined behaviour in isspace and pointer arithmetic does not show with common C libraries.", "anchors": ["src/logging.c:52-70", "src/logging.c:98-112"]}
{"id": "C97", "title": "The client's screen shows what the application displays", "statement": "If the application reports every change of its picture as damage, then every pixel a connected client has on its screen has the colour the application displays there, unless the pixel is in damage still to be sent or in a frame that is being encoded; when a client waits for an update and the server is not busy with one, every pixel the client has asked for is on its screen and current.", "quantifier": "every sequence of events (messages, damage, new buffers, cursors, finished frames, writes), every application picture at every moment, every pixel", "why_tests_cant": "The picture may change at every moment of an update; a pixel lost between damage, encoder and socket stays stale for as long as nothing else changes, which a test only sees in the one interleaving it runs.", "anchors": ["src/server.c:863-959", "src/server.c:2438-2445", "src/server.c:2498-2560", "src/server.c:2567-2591", "src/display.c:30-52"]}
{"id": "C98", "title": "Everything that is sent can be read", "statement": "The bytes that a client receives are ServerInit and then messages of the RFB protocol, one after another, with nothing in between and nothing cut: a client that knows only the protocol, its encodings and its pixel format finds the end of every message and of every rectangle.", "quantifier": "every sequence of events and any number of clients; every frame and cursor the encoders produce", "why_tests_cant": "One wrong length puts a client out of step for the rest of the session, and what it misreads depends on everything that follows; tests see the messages that one client happens to trigger in one order.", "anchors": ["src/server.c:420-474", "src/server.c:573-613", "src/server.c:697-760", "src/server.c:863-959", "src/server.c:1098-1230", "src/server.c:1544-1600", "src/server.c:1636-1740", "src/server.c:2498-2620", "src/server.c:2771-2810", "src/enc/util.c:29-50", "src/enc/raw.c:56-127", "src/enc/zrle.c:239-341", "src/enc/tight.c:150-420", "src/enc/h264/open-h264.c:60-220", "src/cursor.c:56-126"]}
{"id": "C99", "title": "The client decodes the application's picture", "statement": "A client that knows only the protocol, and decodes the bytes it receives in the order in which they come, has on its screen the colours the application displays: every pixel it has decoded has the colour of the application's current picture, unless that pixel is in damage still to be sent, and every pixel it has asked for is there.", "quantifier": "every sequence of events, every sequence of pictures and damage, every frame an exact encoder produces", "why_tests_cant": "It joins the encoder, the update logic and the order of the byte stream: a rectangle at the wrong place, a frame sent with another frame's region or a lost size change shows only in particular orders of damage, requests and completed frames.", "anchors": ["src/server.c:863-959", "src/server.c:2498-2620", "src/server.c:2771-2810", "src/enc/raw.c:56-127", "src/enc/util.c:29-50", "src/pixels.c:24-190", "src/enc/zrle.c:60-420", "src/enc/tight.c:180-470"]}
{"id": "C100", "title": "One compressed stream per encoding and connection, complete", "statement": "For as long as a connection lasts, all frames in ZRLE come from one encoder, and so do all frames in Tight, however often the client switches between encodings in between; and a client that appends the compressed data of the rectangles it received has exactly what that encoder has put out, so that its decompressor can go on where it was.", "quantifier": "every sequence of events, every choice and change of encodings and formats, any number of clients", "why_tests_cant": "The zlib streams of ZRLE and Tight depend on everything sent before in the connection; a new encoder or a frame that was compressed and then not sent puts a client's decompressor out of step only for the sequences of encodings, formats and completions in which it happens, and only later frames show it.", "anchors": ["src/server.c:771-826", "src/server.c:2488-2560", "src/enc/zrle.c:213-400", "src/enc/tight.c:90-140"]}
{"id": "C101", "title": "Clients do not notice each other", "statement": "What a client is sent, which callbacks are made for it and what becomes of it depend on its own messages, its own connection and the application's calls only: two histories that differ only in what other clients send and do, and when they go away, look the same to it.", "quantifier": "every pair of histories, any number of clients of either kind, any behaviour of their connections", "why_tests_cant": "It compares pairs of executions: all clients share one server structure, its clipboard, its list of security types and its counters, and whether anything of one client reaches another depends on which of all interleavings took place.", "anchors": ["src/server.c:257-290", "src/server.c:406-418", "src/server.c:1556-1589", "src/server.c:1998-2086", "src/server.c:2625-2636", "src/server.c:2887-2897"]}
{"id": "C102", "title": "Required encryption covers the whole session", "statement": "When the application requires encryption, the connection of a client is encrypted before its credentials are read, and nothing but messages of the handshake is ever sent to it in the clear.", "quantifier": "every run of a server with any clients, in any interleaving", "why_tests_cant": "A leak needs one path through one of four handshakes, or one API call at the wrong moment; a test sees only the paths it takes.", "anchors": ["src/server.c: init_security_types, on_security_message, nvnc_send_cut_text", "src/auth/vencrypt.c", "src/auth/rsa-aes.c"]}
{"id": "C103", "title": "Clients that follow the protocol get in", "statement": "A client that sends its version, one of the offered security types, well formed messages of that type with credentials the application approves, and ClientInit, each after the answer to the one before, gets exactly the answers of the protocol, is announced to the application with its user name, and has a session, whatever others do meanwhile; if the application does not approve the credentials, it is told so and gets no session.", "quantifier": "every split of every message into reads, every user name, password, key and challenge that fits, every interleaving with any other clients and with calls of the application", "why_tests_cant": "It is a liveness-like claim over all segmentations of four handshakes and all interleavings with other clients; tests run the handshake in whole messages and alone.", "anchors": ["src/server.c:236-502", "src/auth/common.c", "src/auth/vencrypt.c", "src/auth/apple-dh.c", "src/auth/rsa-aes.c"]}
{"id": "C104", "title": "A WebSocket stream carries messages both ways", "statement": "Nothing is sent to a WebSocket client before its request is complete. Then it gets the reply to the request and, whatever the socket accepts at a time, whole frames: every message handed to the stream, before or after the handshake, once and in order, and the answers to pings between them. What the client sends in frames behind its request reaches the layer above, however the request and the frames are cut.", "quantifier": "every history of sends, functions that make messages late, reads, writability and closing; every answer of the kernel; every split of the input", "why_tests_cant": "Frames, queue and handshake are each testable, but their composition depends on how many bytes the kernel takes at each call and on callbacks that run in the middle of a flush; tests see one such schedule.", "anchors": ["src/stream/ws/ws.c:40-314", "src/stream/ws/handshake.c:39-106", "src/stream/tcp.c:60-215"]}
{"id": "C105", "title": "An encoder hands over each frame once and gives back what it took", "statement": "Raw, ZRLE and Tight encoders hand every frame that they accepted to the client once, in order, made of the framebuffer, damage, pixel format and quality that were given, with its size and time. No encoder, framebuffer or work is used after it was given back. When nobody is at work, no framebuffer is held and the encoder is freed just if the client is gone; and threads and main loop always come to that end.", "quantifier": "every interleaving of client, worker threads and main loop, frames given while another is handed over and closing at any time, failures of allocations and starts", "why_tests_cant": "Worker threads and callbacks interleave in ways a test cannot choose, and a reference too few shows only when the client leaves at the wrong moment.", "anchors": ["src/enc/raw.c:129-254", "src/enc/zrle.c:343-477", "src/enc/tight.c:169-226,430-623", "src/enc/interface.c:75-123", "src/server.c:874-948"]}
{"id": "C106", "title": "Frames are in the pixel format and the encoding that the client wants", "statement": "A frame is begun in the pixel format that the client was told in ServerInit or asked for last, and in an encoding of its last list, or raw. When it is sent this is still so, though the client changed its mind while the frame was encoded, unless the client has fences and can tell frames from before the change from later ones. SetPixelFormat and SetEncodings make the wish: nothing that was not named is in the list, and with up to 32 encodings none of the frame encodings is left out.", "quantifier": "every run of a server with any clients, any messages in any order and at any moment of the encoding of a frame", "why_tests_cant": "What goes wrong does so only if the change comes between the beginning and the end of the encoding of a frame, which is in another thread; a viewer then reads pixels of the wrong size and the stream is lost.", "anchors": ["src/server.c:430-502", "src/server.c:504-557", "src/server.c:597-690", "src/server.c:863-959", "src/server.c:2488-2550"]}
{"id": "C107", "title": "Framebuffers, displays and the server may be given up in any order", "statement": "Whatever an application does with framebuffers, displays and the server that it has references to, and in whatever order it lets go of them, no call uses anything that was freed and none aborts. A framebuffer is there for exactly as long as the application or an encoder has it, a display shows it or it is being turned; a display for as long as the application or the server has it. Each is freed once, with the clean-up function called on what the application attached last, which is its own. In the end nothing is left.", "quantifier": "every history of creating, referencing, releasing, attaching, adding, removing, feeding with and without transform, finishing of jobs and encoders at any time, and deleting the server", "why_tests_cant": "A use after free depends on the order of releases and on jobs of other threads being under way, and goes unnoticed most of the time.", "anchors": ["src/display.c:31-146", "src/fb.c:172-210", "src/resampler.c:50-79,98-102,162-243", "src/server.c:2366-2415,2638-2660,2701-2721"]}
{"id": "C108", "title": "What cannot be made leaves nothing behind, and what is made can be given back", "statement": "Every function that makes an object from several calls of other libraries returns either an object or nothing, whatever calls fail. If it returns nothing then everything is there that was there before, and nothing else. If it returns an object then destroying it, at any later time, gives back exactly what it took. Functions that work on an object for a while, such as encoding a frame or loading a key, leave nothing behind.", "quantifier": "every pattern of failures of library calls, every state, every number of sizes, frames, planes, packets, directory entries and lines", "why_tests_cant": "Allocation and driver failures have to be injected at each call in turn; leaks and double frees on error paths do not show in results.", "anchors": ["src/enc/zrle.c:401-437", "src/enc/tight.c:119-226,549-569", "src/display.c:54-90", "src/damage-refinery.c:36-73", "src/resampler.c:67-102,170-243", "src/stream/tcp.c:278-320", "src/stream/gnutls.c:255-292", "src/stream/rsa-aes.c:192-211", "src/stream/ws.c:301-314", "src/rcbuf.c:23-70", "src/crypto/nettle/rsa.c:77-138", "src/enc/h264/ffmpeg-impl.c:119-175,203-351,370-454,493-614", "src/enc/h264/v4l2m2m-impl.c:279-326,406-452,612-729", "src/enc/h264/open-h264.c:93-158", "src/server.c:2843-2884"]}
{"id": "C109", "title": "The server's RSA key is read from its file as it is", "statement": "From a PEM file with an RSA private key, with the base64 text in lines of any length and anything after the END line, exactly the key is imported. A file of another kind is refused, and no file makes the server write outside its memory. A file with Windows line ends is read like any other, and one that was cut off is refused.", "quantifier": "every file, every key, every way to split the text into lines", "why_tests_cant": "Tests load a key or two made by one tool; the lengths of lines, what follows the END line, zero bytes, missing newlines and truncation at each place are endless.", "anchors": ["src/crypto/nettle/rsa.c:77-138", "src/base64.c:109-155"]}
{"id": "C110", "title": "The hardware encoder is made on a device that can do it", "statement": "The encoder is made on the first video device that can be opened, moves buffers from memory to memory, codes H.264 and has the size of the picture, and on none if there is no such device. The device is set to one of its own formats with the framebuffer's bytes, to a size of its own that holds the picture and is the smallest multiple of 16, and to H.264 of the picture's size. If a device cannot be set up the next is tried. Of each plane of a framebuffer the device is told where it is and no more bytes than there are.", "quantifier": "every directory of devices with any capabilities, formats, sizes and answers; every size and framebuffer format; every plane", "why_tests_cant": "Each device answers differently, and nobody has all of them; a driver may change what it is asked for without failing.", "anchors": ["src/enc/h264/v4l2m2m-impl.c:196-277", "src/enc/h264/v4l2m2m-impl.c:484-499", "src/enc/h264/v4l2m2m-impl.c:541-670"]}
{"id": "C111", "title": "Cursors with a transform are sent turned", "statement": "A cursor whose image has a transform is sent as the turned image: size, pixels, mask and hotspot are those of the image after so many quarter turns and perhaps a reflection. A cursor that is smaller than its image is the same part of it as without transform. Images of every format that the server accepts stay within their memory, and the application's references to the image are as before.", "quantifier": "all eight transforms, every image and size of it, every hotspot and pixel format of a client", "why_tests_cant": "Compositors turn cursors only on turned outputs; eight transforms times all sizes, formats and hotspots.", "anchors": ["src/cursor.c:33-129", "src/transform-util.c:48-162", "src/resampler.c:104-148", "src/fb.c:37-66"]}
{"id": "C112", "title": "What the log calls encodings and formats", "statement": "The list of a client's encodings in the log is their names with commas between them, cut to the buffer, and is never written outside of it. Each encoding is called what the protocol calls its number and no two have one name. A pixel format that comes from a framebuffer's is called by that format's name.", "quantifier": "every list of encodings of any length, every size of buffer, every 32 bit number; every framebuffer format", "why_tests_cant": "Lists come from clients, and the names' lengths add up to more than the buffer only for some of them.", "anchors": ["src/server.c:559-571", "src/server.c:745-769", "src/pixels.c:648-676"]}
{"id": "C113", "title": "Comparing clocks gives the right answer", "statement": "A client that asks for the server's clock gets its request back with the time at which the server took it up and the time at which the answer goes out. When the client reports the four times, the server logs exactly the time that the messages were under way, and an offset of the clocks that is wrong by no more than half of it. No report of a client is undefined behaviour.", "quantifier": "every padding and content of the fields, all readings of both clocks modulo 2^32, all delays", "why_tests_cant": "Clocks of one machine agree; overflow depends on when two machines were started.", "anchors": ["src/server.c:1702-1750"]}
{"id": "C114", "title": "The server can be deleted while clients are connected", "statement": "nvnc_del closes and frees every client exactly once, calls the application's function for it once, does not use it after that and leaves nothing of it in the main loop. It waits for frames that are being encoded, but for each client a second at most, and always returns. Connections that arrive meanwhile do no harm.", "quantifier": "every number of clients in every state, every queue of messages, everything that happens in the main loop while the server waits, any speed of it", "why_tests_cant": "Depends on what is under way in that moment: messages in queues, hang-ups just noticed, encoders at work, connections that arrive.", "anchors": ["src/server.c:141-234", "src/server.c:2357-2411", "src/server.c:2438-2451", "src/server.c:2488-2559"]}
{"id": "C115", "title": "A connection can be read from its first byte to its last", "statement": "A client that reads the stream as the protocol says finds the server's version, a list of security types with the one it chose, the exchange of that security type, the result, ServerInit and then only whole messages. This holds for every security type, however the transport cuts the stream: what has arrived so far is always heard as the beginning of this, and as all of it once the queue is empty.", "quantifier": "all histories of the server and all its clients, every security type, all answers of the operating system and of the crypto libraries, TCP, WebSocket, TLS and RSA-AES", "why_tests_cant": "Depends on what the application does while clients are introducing themselves and on where writes are cut.", "anchors": ["src/server.c:236-502", "src/auth/vencrypt.c:28-139", "src/auth/apple-dh.c:30-110", "src/auth/rsa-aes.c:40-306", "src/auth/common.c:23-65"]}
{"id": "C116", "title": "A client that is refused is told so", "statement": "A client that the server turns away, because of its version, security type, VeNCrypt version or subtype, or its password, finds at the place where it reads next the message by which the protocol refuses at this place, with a reason where there is room for one. It is the last thing that it is sent.", "quantifier": "all histories of the server and all its clients, every security type, every answer of the application and of the operating system", "why_tests_cant": "Test clients use the right versions and do not read on after an error; clients with several connections and slow networks differ.", "anchors": ["src/server.c:223-255", "src/server.c:316-404", "src/auth/common.c:23-51", "src/auth/vencrypt.c:45-101"]}
{"id": "C117", "title": "Attached data are cleaned up once, and not shown afterwards", "statement": "Data that the application attaches to a server or client with nvnc_set_userdata are given to their clean-up function exactly once: when the server or client goes, or when others take their place. nvnc_get_userdata never gives data, in any callback, that have been cleaned up.", "quantifier": "all orders of connections, callbacks, attachments, closings and the deletion of the server, for any number of clients, if the same data are not attached in two places", "why_tests_cant": "Tests attach one thing to one object; what is freed twice or shown after it was freed depends on which clients are left, and with what, when the server goes.", "anchors": ["src/server.c:164-179", "src/server.c:2358-2377", "src/server.c:2638-2651", "src/server.c:2683-2687", "include/common.h:75-78"]}
{"id": "C118", "title": "Frames are held back only when the link has more to carry than is allowed", "statement": "A frame is held back for lack of bandwidth only if the data in flight is more than the link delivers, by the estimate, within the shortest round trip and the 33 ms that are allowed for beyond it.", "quantifier": "every history of measurements, frames sent and answers", "why_tests_cant": "The limit is a product of measured times and sizes; a limit that is too low only makes some connections slower than they need be, which no test notices.", "anchors": ["src/server.c: process_fb_update_requests", "src/bandwidth.c: bwe_get_estimate"]}
{"id": "C119", "title": "JPEG images show the tile in the quality asked for", "statement": "When a client asks for JPEG, each image is made from the pixels of its tile, with their colours as they are in the framebuffer, in a quality that libjpeg has and that grows with the client's level; at the best level colours keep their full resolution.", "quantifier": "every framebuffer, damage, level of quality and behaviour of libjpeg, and every schedule of the workers", "why_tests_cant": "Needs every format, size and stride of framebuffers; a channel in the wrong byte, a row too far or a quality out of range shows only as a wrong picture, and coarse colours hardly at all.", "anchors": ["src/enc/tight.c: tight_get_jpeg_pixfmt", "src/enc/tight.c: tight_encode_tile_jpeg"]}
{"id": "C120", "title": "Clients can be closed from callbacks", "statement": "An application may close clients with nvnc_client_close in any of its callbacks, also the client that the callback is about, and go through the clients with nvnc_client_first and nvnc_client_next: the library never uses a client that has been freed, the application is told of the end of each client once, and going through the clients shows each of them once.", "quantifier": "all orders of connections, messages, hang-ups and calls, for any number of clients and any calls in callbacks, nested to any depth", "why_tests_cant": "What is used after it was freed depends on which client is closed in which callback of which other client, and memory that has been freed mostly looks as it did before.", "anchors": ["src/server.c: client_close, nvnc_client_close, nvnc_client_first, nvnc_client_next, on_client_event, on_init_message, disconnect_all_other_clients", "include/sys/queue.h: LIST_FOREACH_SAFE"]}
{"id": "C121", "title": "The key that the application sets is the key that clients see", "statement": "After nvnc_set_rsa_creds has succeeded every client that chooses RSA-AES is shown that key, until the application sets another; a call that fails changes nothing; if no key was set, one is made for the first client and shown to all. In each handshake the challenge is decrypted with, and the hashes are computed over, the key that the client was shown. The first good certificate given to nvnc_set_tls_creds stays.", "quantifier": "all orders of calls, good and bad files, and handshakes of any number of clients", "why_tests_cant": "Tests set one key before the first client; keys that are replaced while clients are between two messages, and files that are bad the second time, are histories.", "anchors": ["src/server.c: nvnc_set_rsa_creds, nvnc_set_tls_creds", "src/auth/rsa-aes.c: rsa_aes_send_public_key, on_rsa_aes_challenge, on_rsa_aes_client_hash"]}
{"id": "C122", "title": "FFmpeg is told what the picture is", "statement": "Of every framebuffer that is to be encoded as H.264 with FFmpeg, FFmpeg is told its size, the order of the bytes of its pixels, and where in memory each byte of each plane is, with a size of that memory which includes the plane; the picture that is made has the size of the framebuffer. Framebuffers of other formats are refused.", "quantifier": "every sequence of framebuffers of all sizes, formats and layouts of planes, and of changes of quality, whichever encoders can be made", "why_tests_cant": "Needs a GPU, and one for each layout of memory; framebuffers that change between frames are histories.", "anchors": ["src/enc/h264/ffmpeg-impl.c: drm_to_av_pixel_format, fb_to_avframe, h264_encoder_ffmpeg_create", "src/enc/h264/open-h264.c: open_h264_resize, open_h264_encode"]}
{"id": "C123", "title": "The application gets of a compressed clipboard text what the client sent", "statement": "Of an extended clipboard message that provides a text, the application gets the text that the message decompresses to, up to the first zero byte and with its line endings replaced, and nothing if it is not terminated. A message that holds fewer bytes than it announces, or cannot be decompressed, is ignored.", "quantifier": "every compressed message, every announced length, every decompressed contents, every state of a ready client", "why_tests_cant": "What was never written in memory has any value, also the one a test expects; lengths and contents are infinitely many.", "anchors": ["src/server.c: process_client_ext_clipboard_provide, crlf_to_lf"]}
{"id": "C124", "title": "Frames are in the quality that the client wants", "statement": "Every frame is encoded in the quality level that its client named last; if its latest list of encodings names none, or it has sent no list, the frame is lossless. Nothing but a list of encodings changes the quality, and it is always one of the ten levels or lossless.", "quantifier": "every execution of a server with any number of clients, every list of encodings", "why_tests_cant": "The quality of a frame depends on the whole history of the connection, and frames begin in many places.", "anchors": ["src/server.c: on_client_set_encodings, process_fb_update_requests, on_connection"]}
{"id": "C125", "title": "Clients are told which of their extensions the server knows", "statement": "A client that names fences, continuous updates or the extended clipboard among its encodings is told at once that the server knows them: by a fence, by an EndOfContinuousUpdates message (the first time) and by the server's clipboard capabilities. A client that names the QEMU key event or the clock extension is told by an update with an empty rectangle of each that it named, in answer to its next request for an update, and once per connection. Nobody is told about an extension that they did not name.", "quantifier": "every execution of a server with any number of clients, every list of encodings", "why_tests_cant": "What a client is told depends on the order in which it names encodings and asks for updates over the whole connection.", "anchors": ["src/server.c: on_client_set_encodings, send_ext_support_frame, process_fb_update_requests, send_fence, send_ext_clipboard_caps"]}
{"id": "C126", "title": "Clients know the size of the picture", "statement": "Every frame that is sent has the size that its client was told last, in the ServerInit message or by a rectangle of an encoding that the client named. A client with extended desktop sizes that asks for the whole picture is told the size again before the next frame. A size is told only if it is another one than the client knows, or if the client asked.", "quantifier": "every execution of a server with any number of clients, every list of encodings, frames of every size", "why_tests_cant": "Sizes change at any time relative to requests, lists of encodings and frames that are being encoded; what a client knows depends on the whole connection.", "anchors": ["src/server.c: send_server_init_message, finish_fb_update, send_desktop_resize_rect, send_extended_desktop_size_rect, on_client_fb_update_request"]}
{"id": "C127", "title": "Frames carry their times", "statement": "In a library built with its experimental parts, a frame to which the application gave a time, sent to a client that named the encoding for times (-1000) last, comes directly after a rectangle with exactly that time, on the same channel. No such rectangle is in front of any other frame, and none is sent that is not followed by its frame.", "quantifier": "every execution of a server with any number of clients, every list of encodings, frames with every time and without", "why_tests_cant": "Whether a time goes with a frame depends on the encodings that the client has named by the time the encoder is done, and that the times are those of their frames is about all interleavings of requests, encoders and lists of encodings.", "anchors": ["src/server.c: will_send_pts, send_pts_rect, finish_fb_update, on_client_set_encodings"]}
{"id": "C128", "title": "Clients get the cursors that the application sets", "statement": "A cursor is sent only to a client that named the encoding for cursors (-239) last, as an update with one rectangle, and no client gets more cursors than the application has set. When the application sets a cursor, every such client gets it that waits for an update and has none under way. A cursor that cannot be encoded does not cost a client its request.", "quantifier": "every execution of a server with any number of clients, every list of encodings, every pattern of requests, cursors with and without an encoding", "why_tests_cant": "Which client gets which cursor depends on sequence numbers in the server and in each client, over all interleavings of requests, lists of encodings and calls of the application.", "anchors": ["src/server.c: nvnc_set_cursor, process_fb_update_requests, send_cursor_update, decrement_pending_requests"]}
{"id": "C129", "title": "Clients learn the state of the LEDs", "statement": "When the application sets a keyboard LED state that a client does not know yet, a client that named the LED encoding and waits for an update learns it at once; one that does not wait learns the state set last with its next request, before anything else is sent; the message carries the state in one byte.", "quantifier": "every history of a server, every client, state and request", "why_tests_cant": "Whether a change is told depends on what was told before, on pending requests and on the order of the other updates; tests cover single changes.", "anchors": ["src/server.c: nvnc_client_set_led_state, send_led_state, process_fb_update_requests", "src/server.c: on_client_fb_update_request"]}
