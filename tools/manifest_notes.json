{
}
