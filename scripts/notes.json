{
"C09": {
"note": "The stronger wish (streams stay prefixes even if the process goes on after a torn page) is false of the code: C09_io_failure_corrupts and C09_callback_panic_desynchronises are witnesses."
},
"C10": {
"note": "Independence proved; the shared-tag hazard is proved by a witness. Addresses: C02_returned_address holds without the tag hypothesis."
},
"C14": {
"note": "The unconditional claim is false of the code (C14_readers_disagree is a session on which to_string drops text); the exact condition is proved: C14_to_string_exact."
},
"C19": {
"note": "The model's fuel is the reader's stack; divergence means that no amount of stack suffices."
},
"C21": {
"note": "The unconditional claim is false of the code (C21_arguments_lost); the exact condition is proved."
},
"C23": {
"note": "The documented and the accepted grammar differ exactly at U+000B."
},
"C29": {
"note": "The exact conditions: command lines that survive escaping (C32_opens_iff_plain) and texts as shown by to_string (C14_to_string_exact)."
},
"C32": {
"note": "The desired claim is false; the exact condition is proved (C32_opens_iff_plain) and the failure shown (C32_unreadable_profiles)."
},
"C30": {
"note": "The v8 decoder is an external crate: modelled as arbitrary functions."
},
"C40": {
"note": "The desired claim (the self times for every stream) is false of the code; the witnesses are C40_overlap_panics and C40_silently_wrong. Proved: exactly when the analysis returns, what its numbers are on any stream, and that on properly nested streams it never panics."
},
"C36": {
"note": "For streams that are not properly nested an interleaving may panic while another does not (the subtraction panics depend on the order); if both return they agree."
},
"C53": {
"note": "The wish (hashing column shown whenever there is data) is false of the code: C53_hashing_hidden; the exact condition is C53_hashing_exact."
},
"C52": {
"note": "The desired claim is false (C52_extension_not_recognised, C52_saved_results_not_read); the exact condition is C52_json_iff."
},
"C50": {
"note": "For results with times below 2^64 ns and counts and sizes below 2^63; C50_huge_sizes_wrap shows the bound is needed."
},
"C59": {
"note": "Paths are byte strings as on Unix."
},
"C57": {
"note": "The hardware (rdpmc) is a parameter: the register shows the true count modulo 2^48."
}
}