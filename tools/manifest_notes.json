{
"C03": {"note": "The property states the actual behaviour, including the side effect before the error; C03_retain_not_exception_safe is the witness."},
"C12": {"note": "A log file literally named 'console' shares the console token (C12_console_file_collision); C12_latest excludes exactly that."}
}
