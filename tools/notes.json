{
"C11":{"note":"Exact for add, sub and for mul except a zero product with scale sum over 16383 in a debug build, where the code trips a debug assertion (C11_zero_scale_panics)."},
"C07":{"note":"Shape, uniqueness and surjectivity of canonical bytes; closure of the API under canonicity."},
"C27":{"status":"partial","note":"The documented claim is false of the code: when the rounded value reaches 10^131072 the receiver is left with a null buffer (C27_null_receiver, C27_null_receiver_occurs). Proved for every other number."},
"C28":{"status":"partial","note":"The claim is false of the code: debug builds abort on an assertion, release builds turn NaN into 0. Both behaviours are proved exactly."}
}
